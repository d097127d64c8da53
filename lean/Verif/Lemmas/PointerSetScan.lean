import Verif.Model.PointerSet
/-! Word-scanning lemmas for the pointer set. -/
namespace Meevax.PointerSet

/-- Bit `j` of a bitmap. -/
def bit (a : Nat → Word) (j : Nat) : Bool := (a (j / 64)).getLsbD (j % 64)

theorem find_range_some {p : Nat → Bool} {n k : Nat} (h : (List.range n).find? p = some k) :
    k < n ∧ p k = true ∧ ∀ j < k, p j = false := by
  rw [List.find?_range_eq_some] at h
  obtain ⟨h1, h2, h3⟩ := h
  refine ⟨by simpa using h2, h1, ?_⟩
  intro j hj
  simpa using h3 j hj

theorem find_range_none {p : Nat → Bool} {n : Nat} (h : (List.range n).find? p = none) :
    ∀ j < n, p j = false := by
  rw [List.find?_range_eq_none] at h
  intro j hj
  simpa using h j hj

theorem word_ne_zero_iff (w : Word) : w ≠ 0#64 ↔ ∃ i < 64, w.getLsbD i = true := by
  constructor
  · intro h
    apply Classical.byContradiction
    intro hn
    apply h
    apply BitVec.eq_of_getLsbD_eq
    intro i hi
    have : ¬ w.getLsbD i = true := fun hh => hn ⟨i, hi, hh⟩
    simpa using this
  · rintro ⟨i, hi, h⟩ h0
    rw [h0] at h
    simp at h

theorem ctz_spec {w : Word} (h : w ≠ 0#64) :
    ctz w < 64 ∧ w.getLsbD (ctz w) = true ∧ ∀ j < ctz w, w.getLsbD j = false := by
  unfold ctz
  cases hf : (List.range 64).find? (fun i => w.getLsbD i) with
  | none =>
    obtain ⟨i, hi, hb⟩ := (word_ne_zero_iff w).1 h
    rw [find_range_none hf i hi] at hb
    cases hb
  | some k => exact find_range_some hf

theorem clz_spec {w : Word} (h : w ≠ 0#64) :
    clz w < 64 ∧ w.getLsbD (63 - clz w) = true ∧ ∀ j, 63 - clz w < j → j < 64 → w.getLsbD j = false := by
  unfold clz
  cases hf : (List.range 64).find? (fun i => w.getLsbD (63 - i)) with
  | none =>
    obtain ⟨i, hi, hb⟩ := (word_ne_zero_iff w).1 h
    have := find_range_none hf (63 - i) (by omega)
    rw [show 63 - (63 - i) = i by omega] at this
    rw [this] at hb
    cases hb
  | some k =>
    obtain ⟨h1, h2, h3⟩ := find_range_some hf
    refine ⟨h1, h2, ?_⟩
    intro j hj hj2
    simp only [Option.getD_some] at hj
    have := h3 (63 - j) (by omega)
    rwa [show 63 - (63 - j) = j by omega] at this

theorem ctz_le (w : Word) : ctz w ≤ 64 := by
  by_cases h : w = 0#64
  · subst h; decide
  · exact Nat.le_of_lt (ctz_spec h).1

theorem getLsbD_maskUp (w : Word) (r j : Nat) (hj : j < 64) :
    (w &&& (BitVec.allOnes 64 <<< r)).getLsbD j = (w.getLsbD j && decide (r ≤ j)) := by
  rw [BitVec.getLsbD_and, BitVec.getLsbD_shiftLeft, BitVec.getLsbD_allOnes]
  by_cases h : r ≤ j
  · simp [h, hj, Nat.not_lt.2 h, show j - r < 64 by omega]
  · simp [h, Nat.lt_of_not_le h]

theorem getLsbD_maskDown (w : Word) (r j : Nat) (hr : r < 64) (hj : j < 64) :
    (w &&& (BitVec.allOnes 64 >>> (63 - r))).getLsbD j = (w.getLsbD j && decide (j ≤ r)) := by
  rw [BitVec.getLsbD_and, BitVec.getLsbD_ushiftRight, BitVec.getLsbD_allOnes]
  have : (63 - r + j < 64) ↔ j ≤ r := by omega
  simp [this]

theorem scanUpFrom_spec (a : Nat → Word) (Q q : Nat) :
    match scanUpFrom a Q q with
    | some k => q * 64 ≤ k ∧ k < Q * 64 ∧ bit a k = true ∧ ∀ j, q * 64 ≤ j → j < k → bit a j = false
    | none => ∀ j, q * 64 ≤ j → j < Q * 64 → bit a j = false := by
  fun_induction scanUpFrom a Q q with
  | case1 q hq hw =>
    obtain ⟨h1, h2, h3⟩ := ctz_spec hw
    refine ⟨by omega, by omega, ?_, ?_⟩
    · unfold bit
      rw [show (q * 64 + ctz (a q)) / 64 = q by omega, show (q * 64 + ctz (a q)) % 64 = ctz (a q) by omega]
      exact h2
    · intro j hj1 hj2
      unfold bit
      rw [show j / 64 = q by omega]
      exact h3 _ (by omega)
  | case2 q hq hw ih =>
    have h0 : ∀ j, q * 64 ≤ j → j < (q + 1) * 64 → bit a j = false := by
      intro j h1 h2
      unfold bit
      rw [show j / 64 = q by omega]
      have : a q = 0#64 := by simpa using hw
      rw [this]; simp
    split at ih
    · obtain ⟨i1, i2, i3, i4⟩ := ih
      refine ⟨by omega, i2, i3, ?_⟩
      intro j hj1 hj2
      by_cases hh : j < (q + 1) * 64
      · exact h0 j hj1 hh
      · exact i4 j (by omega) hj2
    · intro j hj1 hj2
      by_cases hh : j < (q + 1) * 64
      · exact h0 j hj1 hh
      · exact ih j (by omega) hj2
  | case3 q hq => intro j h1 h2; omega

/-- In-range forward search: the least set bit at or after `i`. -/
theorem scanUp_spec (a : Nat → Word) (Q : Nat) (g : Word) (i : Nat) (hi : i < Q * 64) :
    match scanUp a Q g i with
    | some k => i ≤ k ∧ k < Q * 64 ∧ bit a k = true ∧ ∀ j, i ≤ j → j < k → bit a j = false
    | none => ∀ j, i ≤ j → j < Q * 64 → bit a j = false := by
  unfold scanUp
  simp only
  have hq : i / 64 < Q := by omega
  have hrd : rd a Q g (i / 64) = a (i / 64) := by simp [rd, hq]
  rw [hrd]
  by_cases hw : a (i / 64) &&& (BitVec.allOnes 64 <<< (i % 64)) ≠ 0#64
  · rw [if_pos hw]
    obtain ⟨h1, h2, h3⟩ := ctz_spec hw
    rw [getLsbD_maskUp _ _ _ h1] at h2
    simp only [Bool.and_eq_true, decide_eq_true_eq] at h2
    refine ⟨by omega, by omega, ?_, ?_⟩
    · unfold bit
      rw [show ∀ c, c < 64 → (i / 64 * 64 + c) / 64 = i / 64 by intros; omega,
        show ∀ c, c < 64 → (i / 64 * 64 + c) % 64 = c by intros; omega]
      · exact h2.1
      · exact h1
      · exact h1
    · intro j hj1 hj2
      have e : j / 64 = i / 64 := by omega
      have := h3 (j % 64) (by omega)
      rw [getLsbD_maskUp _ _ _ (by omega)] at this
      unfold bit
      rw [e]
      have hle : i % 64 ≤ j % 64 := by omega
      simpa [hle] using this
  · rw [if_neg hw]
    have hz : a (i / 64) &&& (BitVec.allOnes 64 <<< (i % 64)) = 0#64 := by simpa using hw
    have h0 : ∀ j, i ≤ j → j < (i / 64 + 1) * 64 → bit a j = false := by
      intro j h1 h2
      have e : j / 64 = i / 64 := by omega
      have := getLsbD_maskUp (a (i / 64)) (i % 64) (j % 64) (by omega)
      rw [hz] at this
      unfold bit
      rw [e]
      have hle : i % 64 ≤ j % 64 := by omega
      simpa [hle] using this.symm
    have ih := scanUpFrom_spec a Q (i / 64 + 1)
    cases hs : scanUpFrom a Q (i / 64 + 1) <;> rw [hs] at ih <;> simp only at ih ⊢
    rotate_left
    · obtain ⟨i1, i2, i3, i4⟩ := ih
      refine ⟨by omega, i2, i3, ?_⟩
      intro j hj1 hj2
      by_cases hh : j < (i / 64 + 1) * 64
      · exact h0 j hj1 hh
      · exact i4 j (by omega) hj2
    · intro j hj1 hj2
      by_cases hh : j < (i / 64 + 1) * 64
      · exact h0 j hj1 hh
      · exact ih j (by omega) hj2

/-- Out-of-range forward search: whatever is read, the answer is out of range. -/
theorem scanUp_oob (a : Nat → Word) (Q : Nat) (g : Word) (i : Nat) (hi : Q * 64 ≤ i) :
    match scanUp a Q g i with
    | some k => Q * 64 ≤ k
    | none => True := by
  unfold scanUp
  simp only
  split
  · rename_i k hk
    split at hk
    · simp only [Option.some.injEq] at hk; omega
    · have := scanUpFrom_spec a Q (i / 64 + 1)
      rw [hk] at this
      simp only at this
      omega
  · trivial

theorem scanDownFrom_spec (a : Nat → Word) (q : Nat) :
    match scanDownFrom a q with
    | some k => k < q * 64 ∧ bit a k = true ∧ ∀ j, k < j → j < q * 64 → bit a j = false
    | none => ∀ j, j < q * 64 → bit a j = false := by
  induction q with
  | zero => simp [scanDownFrom]
  | succ q ih =>
    unfold scanDownFrom
    by_cases hw : a q ≠ 0#64
    · rw [if_pos hw]
      obtain ⟨h1, h2, h3⟩ := clz_spec hw
      refine ⟨by omega, ?_, ?_⟩
      · unfold bit
        rw [show (q * 64 + 63 - clz (a q)) / 64 = q by omega,
          show (q * 64 + 63 - clz (a q)) % 64 = 63 - clz (a q) by omega]
        exact h2
      · intro j hj1 hj2
        unfold bit
        rw [show j / 64 = q by omega]
        exact h3 _ (by omega) (by omega)
    · rw [if_neg hw]
      have h0 : ∀ j, q * 64 ≤ j → j < (q + 1) * 64 → bit a j = false := by
        intro j h1 h2
        unfold bit
        rw [show j / 64 = q by omega]
        have : a q = 0#64 := by simpa using hw
        rw [this]; simp
      cases hs : scanDownFrom a q <;> rw [hs] at ih <;> simp only at ih ⊢
      rotate_left
      · obtain ⟨i2, i3, i4⟩ := ih
        refine ⟨by omega, i3, ?_⟩
        intro j hj1 hj2
        by_cases hh : j < q * 64
        · exact i4 j hj1 hh
        · exact h0 j (by omega) hj2
      · intro j hj
        by_cases hh : j < q * 64
        · exact ih j hh
        · exact h0 j (by omega) hj

/-- Backward search: the greatest set bit at or before `i`. -/
theorem scanDown_spec (a : Nat → Word) (i : Nat) :
    match scanDown a i with
    | some k => k ≤ i ∧ bit a k = true ∧ ∀ j, k < j → j ≤ i → bit a j = false
    | none => ∀ j, j ≤ i → bit a j = false := by
  unfold scanDown
  simp only
  by_cases hw : a (i / 64) &&& (BitVec.allOnes 64 >>> (63 - i % 64)) ≠ 0#64
  · rw [if_pos hw]
    obtain ⟨h1, h2, h3⟩ := clz_spec hw
    generalize hc : clz (a (i / 64) &&& (BitVec.allOnes 64 >>> (63 - i % 64))) = c at *
    rw [getLsbD_maskDown _ _ _ (by omega) (by omega)] at h2
    simp only [Bool.and_eq_true, decide_eq_true_eq] at h2
    refine ⟨by omega, ?_, ?_⟩
    · unfold bit
      rw [show (i / 64 * 64 + 63 - c) / 64 = i / 64 by omega,
        show (i / 64 * 64 + 63 - c) % 64 = 63 - c by omega]
      exact h2.1
    · intro j hj1 hj2
      have e : j / 64 = i / 64 := by omega
      have := h3 (j % 64) (by omega) (by omega)
      rw [getLsbD_maskDown _ _ _ (by omega) (by omega)] at this
      unfold bit
      rw [e]
      have hle : j % 64 ≤ i % 64 := by omega
      simpa [hle] using this
  · rw [if_neg hw]
    have hz : a (i / 64) &&& (BitVec.allOnes 64 >>> (63 - i % 64)) = 0#64 := by simpa using hw
    have h0 : ∀ j, i / 64 * 64 ≤ j → j ≤ i → bit a j = false := by
      intro j h1 h2
      have e : j / 64 = i / 64 := by omega
      have := getLsbD_maskDown (a (i / 64)) (i % 64) (j % 64) (by omega) (by omega)
      rw [hz] at this
      unfold bit
      rw [e]
      have hle : j % 64 ≤ i % 64 := by omega
      simpa [hle] using this.symm
    have ih := scanDownFrom_spec a (i / 64)
    cases hs : scanDownFrom a (i / 64) <;> rw [hs] at ih <;> simp only at ih ⊢
    rotate_left
    · obtain ⟨i2, i3, i4⟩ := ih
      refine ⟨by omega, i3, ?_⟩
      intro j hj1 hj2
      by_cases hh : j < i / 64 * 64
      · exact i4 j hj1 hh
      · exact h0 j (by omega) hj2
    · intro j hj
      by_cases hh : j < i / 64 * 64
      · exact ih j hh
      · exact h0 j (by omega) hj

theorem getLsbD_one_shl (r j : Nat) (hr : r < 64) : (1#64 <<< r).getLsbD j = decide (j = r) := by
  rw [BitVec.getLsbD_shiftLeft]
  by_cases h : j = r
  · subst h; simp [hr]
  · have h1 : ¬ (j - r = 0 ∧ r ≤ j) := by omega
    simp only [BitVec.getLsbD_one]
    by_cases h2 : j < r
    · simp [h2, h]
    · have : j - r ≠ 0 := by omega
      simp [h, this]

theorem bit_set (a : Nat → Word) (i j : Nat) :
    bit (upd a (i / 64) (a (i / 64) ||| (1#64 <<< (i % 64)))) j = (bit a j || decide (j = i)) := by
  unfold bit upd
  by_cases h : j / 64 = i / 64
  · simp only [h, if_true, BitVec.getLsbD_or, getLsbD_one_shl _ _ (Nat.mod_lt i (by omega : 64 > 0))]
    congr 1
    have : j % 64 = i % 64 ↔ j = i := by omega
    simp [this]
  · have : j ≠ i := by intro hh; exact h (by rw [hh])
    simp [h, this]

theorem bit_clear (a : Nat → Word) (i j : Nat) :
    bit (upd a (i / 64) (a (i / 64) &&& ~~~(1#64 <<< (i % 64)))) j = (bit a j && !decide (j = i)) := by
  unfold bit upd
  by_cases h : j / 64 = i / 64
  · simp only [h, if_true, BitVec.getLsbD_and, BitVec.getLsbD_not,
      getLsbD_one_shl _ _ (Nat.mod_lt i (by omega : 64 > 0))]
    have : j % 64 = i % 64 ↔ j = i := by omega
    simp [this, show j % 64 < 64 by omega]
  · have : j ≠ i := by intro hh; exact h (by rw [hh])
    simp [h, this]

theorem test_bit (a : Nat → Word) (i : Nat) :
    ((a (i / 64) &&& (1#64 <<< (i % 64))) != 0#64) = bit a i := by
  have hi : i % 64 < 64 := Nat.mod_lt _ (by omega)
  cases hb : bit a i with
  | true =>
    rw [bne_iff_ne, word_ne_zero_iff]
    refine ⟨i % 64, hi, ?_⟩
    unfold bit at hb
    simp [BitVec.getLsbD_and, getLsbD_one_shl _ _ hi, hb]
  | false =>
    have : a (i / 64) &&& (1#64 <<< (i % 64)) = 0#64 := by
      apply BitVec.eq_of_getLsbD_eq
      intro j hj
      rw [BitVec.getLsbD_and, getLsbD_one_shl _ _ hi]
      by_cases h : j = i % 64
      · subst h; unfold bit at hb; simp [hb]
      · simp [h]
    simp [this]

end Meevax.PointerSet
