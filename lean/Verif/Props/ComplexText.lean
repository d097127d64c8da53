import Verif.Lemmas.RoundTrip

/-! C65: the written form of exact complex numbers. -/

namespace Meevax.Text

/-- **C65**: an exact complex number whose imaginary part is negative is written as a literal that is read
back as the same number. -/
theorem C65_literal_partial {x y : Num} (hx : ReadableReal x) (hy : ReadableReal y) (hn : NegativeReal y) :
    ∃ s, writeNum (.rectangular x y) = some s ∧ makeNumber s 10 = .number (.rectangular x y) ∧
      ∀ rest, Delimited rest → ∃ p, read 0 { rest := s ++ rest } = some (.datum (.num (.rectangular x y)), p) ∧
        Ends rest p := by
  obtain ⟨s, hs, hsr, hsp, hsn⟩ := writeNum_real hx
  obtain ⟨t, ht, htr, htp, htn⟩ := writeNum_real hy
  obtain ⟨u, hu, hus, hun, hz⟩ := writeNum_negative hy hn
  obtain ⟨w, hw, hr⟩ := reads_rectangular hx hy hn
  refine ⟨w, hw, ?_, hr⟩
  rw [ht] at hu
  cases hu
  have : w = s ++ 45 :: u ++ [105] := by
    simp only [writeNum, hz, Bool.false_eq_true, if_false, hs, ht, explicitlySigned, if_true] at hw
    exact (Option.some.inj hw).symm
  rw [this, makeNumber_rectangular hsn (by decide) hus hun, hsr, htr]
  rfl

/-- `1/2-3i` -/
example : writeNum (.rectangular (.ratio 1 2) (.int (-3))) = some (ascii "1/2-3i") ∧
    makeNumber (ascii "1/2-3i") 10 = .number (.rectangular (.ratio 1 2) (.int (-3))) := by
  refine ⟨by simp [writeNum, isExactZero, explicitlySigned, intDigits, natDigits, natDigits.digitChar, ascii],
    by decide⟩

theorem natDigits_signed (n : Nat) : ∀ t, explicitlySigned (natDigits 10 n ++ t) = 43 :: (natDigits 10 n ++ t) := by
  intro t
  obtain ⟨d, ds, e, -, n1, n2⟩ := natDigits_cons (radix := 10) (by omega) (by omega) n
  rw [e]
  simp [explicitlySigned, n1, n2]

/-- **C65 fails** for positive imaginary parts. A positive integer is read back as an inexact number; -/
theorem C65_positive_fails {x : Num} (hx : ReadableReal x) {n : Int} (hn : 0 < n) :
    ∃ s, writeNum (.rectangular x (.int n)) = some s ∧
      makeNumber s 10 = .number (.rectangular x (.inexact (43 :: natDigits 10 n.natAbs))) := by
  obtain ⟨s, hs, hsr, hsp, hsn⟩ := writeNum_real hx
  have hz : isExactZero (.int n) = false := by simp [isExactZero]; omega
  refine ⟨s ++ 43 :: natDigits 10 n.natAbs ++ [105], ?_, ?_⟩
  · have := natDigits_signed n.natAbs []
    rw [List.append_nil] at this
    simp only [writeNum, hz, Bool.false_eq_true, if_false, hs, intDigits, if_neg (show ¬n < 0 by omega)]
    simp [this]
  · rw [makeNumber_rectangular hsn (by decide) (natDigits_no_sign _) (natDigits_ne_nil (by omega) _), hsr,
      makeReal_plus_int]
    rfl

/-- a positive ratio makes the text no number at all, so that it is read back as a symbol. -/
theorem C65_positive_ratio_fails {x : Num} (hx : ReadableReal x) {n : Int} {d : Nat} (hn : 0 < n) (hd : 2 ≤ d) :
    ∃ s, writeNum (.rectangular x (.ratio n d)) = some s ∧ makeNumber s 10 = .invalid := by
  obtain ⟨s, hs, hsr, hsp, hsn⟩ := writeNum_real hx
  have hz : isExactZero (.ratio n d) = false := by simp [isExactZero]; omega
  refine ⟨s ++ 43 :: (natDigits 10 n.natAbs ++ 47 :: natDigits 10 d) ++ [105], ?_, ?_⟩
  · have := natDigits_signed n.natAbs (47 :: natDigits 10 d)
    simp only [writeNum, hz, Bool.false_eq_true, if_false, hs, intDigits, if_neg (show ¬n < 0 by omega),
      if_neg (show d ≠ 1 by omega)]
    simp [this]
  · rw [makeNumber_rectangular hsn (by decide) _ (by simp), hsr, makeReal_plus_ratio]
    · rfl
    · intro b hb
      rcases List.mem_append.1 hb with hb | hb
      · exact natDigits_no_sign _ b hb
      · rcases List.mem_cons.1 hb with rfl | hb
        · decide
        · exact natDigits_no_sign d b hb

/-- **C65 fails** for `number->string`. -/
theorem C65_string_fails (x y : Num) (radix : Nat) :
    numberToString (.rectangular x y) radix = some (ascii "TODO") := rfl

end Meevax.Text
