import Verif.Model.Writer
import Mathlib.Data.List.TakeDrop
import Mathlib.Data.List.TakeWhile
import Mathlib.Tactic.IntervalCases

/-! Digits and integer literals. -/

namespace Meevax.Text

theorem digitChar_toNat {d : Nat} (h : d < 36) :
    (natDigits.digitChar d).toNat = if d < 10 then 48 + d else 87 + d := by
  unfold natDigits.digitChar
  split
  · simp; omega
  · simp; omega

theorem digitIn_digitChar {radix d : Nat} (hr : radix ≤ 36) (h : d < radix) :
    digitIn radix (natDigits.digitChar d) = some d := by
  have e := digitChar_toNat (d := d) (by omega)
  unfold digitIn digitValue
  by_cases h1 : d < 10
  · rw [if_pos h1] at e
    simp only [e, Nat.le_add_right, true_and]
    rw [if_pos (by omega)]
    simp only [Nat.add_sub_cancel_left, h, if_true]
  · rw [if_neg h1] at e
    simp only [e]
    rw [if_neg (by omega), if_pos (by omega)]
    have : 87 + d - 87 = d := by omega
    simp only [this, h, if_true]

theorem natDigits_lt {radix n : Nat} (hr : 2 ≤ radix) (h : n < radix) :
    natDigits radix n = [natDigits.digitChar n] := by
  rw [natDigits, dif_neg (by omega), if_pos h]

theorem natDigits_ge {radix n : Nat} (hr : 2 ≤ radix) (h : radix ≤ n) :
    natDigits radix n = natDigits radix (n / radix) ++ [natDigits.digitChar (n % radix)] := by
  rw [natDigits, dif_neg (by omega), if_neg (by omega)]

theorem digits_append (radix : Nat) {ds : List Byte} : ∀ {acc n : Nat} (rest : List Byte),
    digits radix acc ds = (n, []) → digits radix acc (ds ++ rest) = digits radix n rest := by
  induction ds with
  | nil =>
    intro acc n rest h
    cases h
    rfl
  | cons d ds ih =>
    intro acc n rest h
    rw [digits] at h
    cases hd : digitIn radix d with
    | none => rw [hd] at h; cases h
    | some v =>
      rw [hd] at h
      rw [List.cons_append, digits, hd]
      exact ih rest h

/-- Reading the digits that were written. -/
theorem digits_natDigits {radix : Nat} (hr : 2 ≤ radix) (hr' : radix ≤ 36) (n : Nat) :
    digits radix 0 (natDigits radix n) = (n, []) := by
  induction n using Nat.strongRecOn with
  | ind n ih =>
    by_cases h : n < radix
    · rw [natDigits_lt hr h, digits, digitIn_digitChar hr' h]
      simp [digits]
    · rw [natDigits_ge hr (by omega), digits_append radix _ (ih _ (Nat.div_lt_self (by omega) hr)),
        digits, digitIn_digitChar hr' (Nat.mod_lt _ (by omega))]
      have := Nat.div_add_mod n radix
      rw [Nat.mul_comm] at this
      simp [digits, this]

theorem natDigits_ne_nil {radix : Nat} (hr : 2 ≤ radix) (n : Nat) : natDigits radix n ≠ [] := by
  rw [natDigits, dif_neg (by omega)]
  split <;> simp

theorem natDigits_digit {radix : Nat} (hr : 2 ≤ radix) (n : Nat) : ∀ b ∈ natDigits radix n,
    ∃ d, d < radix ∧ b = natDigits.digitChar d := by
  induction n using Nat.strongRecOn with
  | ind n ih =>
    intro b hb
    by_cases h : n < radix
    · rw [natDigits_lt hr h] at hb
      exact ⟨n, h, by simpa using hb⟩
    · rw [natDigits_ge hr (by omega), List.mem_append] at hb
      rcases hb with hb | hb
      · exact ih _ (Nat.div_lt_self (by omega) hr) b hb
      · exact ⟨n % radix, Nat.mod_lt _ (by omega), by simpa using hb⟩

/-- The first written digit is a digit, and not a sign. -/
theorem natDigits_cons {radix : Nat} (hr : 2 ≤ radix) (hr' : radix ≤ 36) (n : Nat) :
    ∃ d ds, natDigits radix n = d :: ds ∧ (∃ v, digitIn radix d = some v) ∧ d ≠ 45 ∧ d ≠ 43 := by
  cases h : natDigits radix n with
  | nil => exact (natDigits_ne_nil hr n h).elim
  | cons d ds =>
    obtain ⟨v, hv, rfl⟩ := natDigits_digit hr n d (by rw [h]; simp)
    refine ⟨_, ds, rfl, ⟨v, digitIn_digitChar hr' hv⟩, ?_, ?_⟩ <;>
    · intro e
      have := congrArg UInt8.toNat e
      rw [digitChar_toNat (by omega)] at this
      simp at this
      split at this <;> omega

theorem digit_not_space {d : Nat} (h : d < 36) : isSpaceByte (natDigits.digitChar d) = false := by
  interval_cases d <;> decide

theorem natDigits_filter {radix : Nat} (hr : 2 ≤ radix) (hr' : radix ≤ 36) (n : Nat) :
    (natDigits radix n).filter (fun b => !isSpaceByte b) = natDigits radix n := by
  rw [List.filter_eq_self]
  intro b hb
  obtain ⟨d, hd, rfl⟩ := natDigits_digit hr n b hb
  simp [digit_not_space (d := d) (by omega)]

/-- GMP reads back what GMP wrote. -/
theorem mpzSetStr_intDigits {radix : Nat} (hr : 2 ≤ radix) (hr' : radix ≤ 36) (n : Int) :
    mpzSetStr (intDigits radix n) radix = some n := by
  obtain ⟨d, ds, e, ⟨v, hv⟩, n1, n2⟩ := natDigits_cons hr hr' n.natAbs
  have hd : isSpaceByte d = false := by
    obtain ⟨d', hd', rfl⟩ := natDigits_digit hr n.natAbs d (by rw [e]; simp)
    exact digit_not_space (by omega)
  have hf := natDigits_filter hr hr' n.natAbs
  have hdg := digits_natDigits hr hr' n.natAbs
  unfold intDigits
  split
  · have h45 : isSpaceByte 45 = false := by decide
    rw [mpzSetStr]
    simp only [List.dropWhile_cons, h45, Bool.false_eq_true, if_false, minus, if_true]
    rw [e] at hf hdg ⊢
    simp only [hv, hf, hdg]
    congr 1
    omega
  · rw [mpzSetStr]
    rw [e] at hf hdg ⊢
    simp only [List.dropWhile_cons, hd, Bool.false_eq_true, if_false, minus, n1, hv, hf, hdg]
    congr 1
    omega

/-- `std::from_chars` on what was written. -/
theorem fromChars_intDigits {radix : Nat} (hr : 2 ≤ radix) (hr' : radix ≤ 36) (n : Int) :
    fromChars (intDigits radix n) radix =
      if -2 ^ 63 ≤ n ∧ n < 2 ^ 63 then .ok n [] else .outOfRange := by
  obtain ⟨d, ds, e, ⟨v, hv⟩, n1, n2⟩ := natDigits_cons hr hr' n.natAbs
  have hdg := digits_natDigits hr hr' n.natAbs
  unfold intDigits
  split
  · rw [fromChars]
    rw [e] at hdg ⊢
    simp only [minus, hv, hdg, if_true]
    have : (-(n.natAbs : Int)) = n := by omega
    rw [this]
  · rw [fromChars]
    rw [e] at hdg ⊢
    simp only [minus, n1, hv, hdg, Bool.false_eq_true, if_false]
    have : ((n.natAbs : Nat) : Int) = n := by omega
    rw [this]

theorem intDigits_no_plus {radix : Nat} (hr : 2 ≤ radix) (hr' : radix ≤ 36) (n : Int) :
    dropPlus (intDigits radix n) = intDigits radix n := by
  obtain ⟨d, ds, e, -, n1, n2⟩ := natDigits_cons hr hr' n.natAbs
  unfold intDigits
  split
  · rfl
  · rw [e]
    simp [dropPlus, n2]

/-- `make_integer` reads back every exact integer in every radix. -/
theorem makeInteger_intDigits {radix : Nat} (hr : 2 ≤ radix) (hr' : radix ≤ 36) (n : Int) :
    makeInteger (intDigits radix n) radix = some n := by
  rw [makeInteger]
  simp only [fromChars_intDigits hr hr' n, intDigits_no_plus hr hr' n, mpzSetStr_intDigits hr hr' n]
  by_cases h : -2 ^ 63 ≤ n ∧ n < 2 ^ 63
  · rw [if_pos h]
    simp
  · rw [if_neg h]

theorem makeNumber_intDigits {radix : Nat} (hr : 2 ≤ radix) (hr' : radix ≤ 36) (n : Int) :
    makeNumber (intDigits radix n) radix = .number (.int n) := by
  simp [makeNumber, makeReal, makeInteger_intDigits hr hr' n]

/-! ### Ratios -/

theorem slash_not_digit (radix : Nat) : digitIn radix 47 = none := by
  simp [digitIn, digitValue]

theorem digits_natDigits_append {radix : Nat} (hr : 2 ≤ radix) (hr' : radix ≤ 36) (n : Nat)
    (t : List Byte) : digits radix 0 (natDigits radix n ++ 47 :: t) = (n, 47 :: t) := by
  rw [digits_append radix _ (digits_natDigits hr hr' n), digits, slash_not_digit]

/-- A literal with a slash is not an integer. -/
theorem makeInteger_slash {radix : Nat} (hr : 2 ≤ radix) (hr' : radix ≤ 36) (n : Int)
    (t : List Byte) : makeInteger (intDigits radix n ++ 47 :: t) radix = none := by
  obtain ⟨d, ds, e, ⟨v, hv⟩, n1, n2⟩ := natDigits_cons hr hr' n.natAbs
  have hdg := digits_natDigits_append hr hr' n.natAbs t
  have hdg' := digits_natDigits_append hr hr' n.natAbs (t.filter fun b => !isSpaceByte b)
  have hf := natDigits_filter hr hr' n.natAbs
  have hsp : isSpaceByte d = false := by
    obtain ⟨d', hd', rfl⟩ := natDigits_digit hr n.natAbs d (by rw [e]; simp)
    exact digit_not_space (by omega)
  rw [e] at hdg hdg' hf
  have hdrop : dropPlus (intDigits radix n ++ 47 :: t) = intDigits radix n ++ 47 :: t := by
    unfold intDigits
    split
    · rfl
    · rw [e]
      simp [dropPlus, n2]
  have hz : mpzSetStr (intDigits radix n ++ 47 :: t) radix = none := by
    have fl : List.filter (fun b => !isSpaceByte b) (d :: ds ++ 47 :: t) =
        d :: ds ++ 47 :: t.filter (fun b => !isSpaceByte b) := by
      rw [List.filter_append, hf]
      rfl
    rw [List.cons_append] at fl hdg'
    unfold intDigits
    split
    · rw [e]
      have s45 : isSpaceByte 45 = false := by decide
      simp only [mpzSetStr, List.cons_append, List.dropWhile_cons, s45, Bool.false_eq_true, if_false,
        minus, if_true, hv, fl, hdg']
    · rw [e]
      simp only [mpzSetStr, List.cons_append, List.dropWhile_cons, hsp, Bool.false_eq_true, if_false,
        minus, n1, hv, fl, hdg']
  have hfc : fromChars (intDigits radix n ++ 47 :: t) radix =
      if -2 ^ 63 ≤ n ∧ n < 2 ^ 63 then .ok n (47 :: t) else .outOfRange := by
    unfold intDigits
    split
    · rename_i hn
      have : -(n.natAbs : Int) = n := by omega
      rw [e, fromChars]
      rw [List.cons_append] at hdg
      simp only [List.cons_append, minus, if_true, hv, hdg, this]
    · rename_i hn
      have : (n.natAbs : Int) = n := by omega
      rw [e, fromChars]
      rw [List.cons_append] at hdg
      simp only [List.cons_append, minus, n1, if_false, hv, hdg, this, Bool.false_eq_true]
  rw [makeInteger]
  simp only [hfc, hdrop, hz]
  by_cases h : -2 ^ 63 ≤ n ∧ n < 2 ^ 63
  · rw [if_pos h]
    simp
  · rw [if_neg h]

theorem intDigits_no_slash {radix : Nat} (hr : 2 ≤ radix) (hr' : radix ≤ 36) (n : Int) :
    ∀ b ∈ intDigits radix n, b ≠ 47 := by
  have h : ∀ b ∈ natDigits radix n.natAbs, b ≠ 47 := by
    intro b hb
    obtain ⟨d, hd, rfl⟩ := natDigits_digit hr _ b hb
    have hd : d < 36 := by omega
    clear hb
    interval_cases d <;> decide
  unfold intDigits
  split
  · intro b hb
    rcases List.mem_cons.1 hb with rfl | hb
    · decide
    · exact h b hb
  · exact h

theorem span_slash {s t : List Byte} (h : ∀ b ∈ s, b ≠ 47) :
    (s ++ 47 :: t).span (fun b => decide (b ≠ 47)) = (s, 47 :: t) := by
  rw [List.span_eq_takeWhile_dropWhile, List.takeWhile_append_of_pos (by simpa using h),
    List.dropWhile_append_of_pos (by simpa using h)]
  simp

/-- A ratio in lowest terms, read back. -/
theorem makeNumber_ratio {radix : Nat} (hr : 2 ≤ radix) (hr' : radix ≤ 36) {n : Int} {d : Nat}
    (hd : d ≠ 0) (hc : Nat.Coprime n.natAbs d) :
    makeNumber (intDigits radix n ++ 47 :: natDigits radix d) radix = .number (.ratio n d) := by
  have hz : mpzSetStr (natDigits radix d) radix = some (d : Int) := by
    have := mpzSetStr_intDigits hr hr' (d : Int)
    rw [intDigits, if_neg (by omega)] at this
    exact this
  have hg : Nat.gcd n.natAbs d = 1 := hc
  have hs : (d : Int).sign = 1 := Int.sign_eq_one_of_pos (by omega)
  rw [makeNumber, makeReal, makeInteger_slash hr hr']
  simp only [makeRatio, span_slash (intDigits_no_slash hr hr' n), mpzSetStr_intDigits hr hr' n, hz]
  rw [if_neg (by omega)]
  simp [hg, hs]

/-! ### Names that are not numbers -/

theorem digitIn_ten {b : Byte} (h : isDigitByte b = false) : digitIn 10 b = none := by
  simp only [isDigitByte, Bool.and_eq_false_iff, decide_eq_false_iff_not] at h
  have h' : b.toNat < 48 ∨ 57 < b.toNat := by
    rcases h with h | h
    · left
      have := UInt8.le_iff_toNat_le.not.1 h
      have e : UInt8.toNat 48 = 48 := rfl
      omega
    · right
      have := UInt8.le_iff_toNat_le.not.1 h
      have e : UInt8.toNat 57 = 57 := rfl
      omega
  unfold digitIn digitValue
  split
  · rename_i d hd
    dsimp only at hd
    rw [if_neg (by omega)] at hd
    split at hd
    · cases hd
      rw [if_neg (by omega)]
    · split at hd
      · cases hd
        rw [if_neg (by omega)]
      · cases hd
  · rfl

theorem mpzSetStr_none {bs : List Byte} (h : ∀ b ∈ bs, isDigitByte b = false) :
    mpzSetStr bs 10 = none := by
  have hs : ∀ b ∈ (minus (bs.dropWhile isSpaceByte)).2, isDigitByte b = false := by
    have : ∀ b ∈ bs.dropWhile isSpaceByte, isDigitByte b = false := fun b hb =>
      h b ((List.dropWhile_sublist _).subset hb)
    generalize bs.dropWhile isSpaceByte = l at this
    cases l with
    | nil => simp [minus]
    | cons a l =>
      rw [minus]
      split
      · exact fun b hb => this b (by simp [hb])
      · exact this
  unfold mpzSetStr
  dsimp only
  generalize (minus (bs.dropWhile isSpaceByte)) = m at hs
  obtain ⟨neg, ds⟩ := m
  cases ds with
  | nil => rfl
  | cons d ds => simp only [digitIn_ten (hs d (by simp))]

theorem fromChars_invalid {bs : List Byte} (h : ∀ b ∈ bs, isDigitByte b = false) :
    fromChars bs 10 = .invalid := by
  have hs : ∀ b ∈ (minus bs).2, isDigitByte b = false := by
    cases bs with
    | nil => simp [minus]
    | cons a l =>
      rw [minus]
      split
      · exact fun b hb => h b (by simp [hb])
      · exact h
  unfold fromChars
  generalize (minus bs) = m at hs
  obtain ⟨neg, ds⟩ := m
  cases ds with
  | nil => rfl
  | cons d ds => simp only [digitIn_ten (hs d (by simp))]

theorem span_none {p : Byte → Bool} {bs : List Byte} (h : ∀ b ∈ bs, p b = false) :
    bs.span p = ([], bs) := by
  rw [List.span_eq_takeWhile_dropWhile]
  cases bs with
  | nil => rfl
  | cons b bs => simp [h b (by simp)]

theorem isDecimal_false {bs : List Byte} (h : ∀ b ∈ bs, isDigitByte b = false) :
    isDecimal bs = false := by
  have key : ∀ l : List Byte, (∀ b ∈ l, isDigitByte b = false) → isUnsignedDecimal l = false := by
    intro l hl
    rw [isUnsignedDecimal, span_none hl]
    cases l with
    | nil => rfl
    | cons c l =>
      dsimp only
      rw [span_none fun b hb => hl b (by simp [hb])]
      simp
  unfold isDecimal
  apply key
  cases bs with
  | nil => simp [dropSign]
  | cons c ds =>
    rw [dropSign]
    split
    · exact fun b hb => h b (by simp [hb])
    · exact h

/-- A name without digits, without `@`, that does not end in `i`, is not a number. -/
theorem makeNumber_name {bs : List Byte} (h : ∀ b ∈ bs, isDigitByte b = false)
    (ha : ∀ b ∈ bs, b ≠ 64) (hi : bs.getLast? ≠ some 105) : makeNumber bs 10 = .invalid := by
  have hconst : bs ∉ constants := by
    intro hm
    have : (48 : Byte) ∈ bs := by
      simp only [constants, List.mem_cons, List.not_mem_nil, or_false] at hm
      rcases hm with rfl | rfl | rfl | rfl <;> decide
    exact absurd (h _ this) (by decide)
  have hratio : makeRatio bs 10 = .invalid := by
    unfold makeRatio
    rw [List.span_eq_takeWhile_dropWhile]
    have h1 : mpzSetStr (bs.takeWhile fun x => decide (x ≠ 47)) 10 = none :=
      mpzSetStr_none fun b hb => h b ((List.takeWhile_sublist _).subset hb)
    generalize (bs.dropWhile fun x => decide (x ≠ 47)) = l
    cases l with
    | nil => simp only [h1]
    | cons c l => simp only [h1]
  have hreal : makeReal bs 10 = .invalid := by
    simp [makeReal, makeInteger, fromChars_invalid h, hratio, hconst, isDecimal_false h]
  have hpolar : makeComplex.polar bs 10 = .invalid := by
    unfold makeComplex.polar
    have : bs.reverse.dropWhile (fun x => decide (x ≠ 64)) = [] := by
      rw [List.dropWhile_eq_nil_iff]
      intro b hb
      simpa using ha b (by simpa using hb)
    rw [List.span_eq_takeWhile_dropWhile, this]
  rw [makeNumber, hreal]
  dsimp only
  unfold makeComplex
  dsimp only
  have hlast : bs.reverse.head? ≠ some 105 := by
    rwa [List.head?_reverse]
  generalize bs.reverse = r at hlast
  cases r with
  | nil => exact hpolar
  | cons c body =>
    have : c ≠ 105 := by
      rintro rfl
      exact hlast rfl
    simp only [this, if_false]
    exact hpolar

/-! ### Complex numbers -/

theorem makeReal_intDigits {radix : Nat} (hr : 2 ≤ radix) (hr' : radix ≤ 36) (n : Int) :
    makeReal (intDigits radix n) radix = .number (.int n) := by
  simp [makeReal, makeInteger_intDigits hr hr' n]

theorem makeReal_ratio {radix : Nat} (hr : 2 ≤ radix) (hr' : radix ≤ 36) {n : Int} {d : Nat}
    (hd : d ≠ 0) (hc : Nat.Coprime n.natAbs d) :
    makeReal (intDigits radix n ++ 47 :: natDigits radix d) radix = .number (.ratio n d) := by
  have hz : mpzSetStr (natDigits radix d) radix = some (d : Int) := by
    have := mpzSetStr_intDigits hr hr' (d : Int)
    rw [intDigits, if_neg (by omega)] at this
    exact this
  have hg : Nat.gcd n.natAbs d = 1 := hc
  have hs : (d : Int).sign = 1 := Int.sign_eq_one_of_pos (by omega)
  rw [makeReal, makeInteger_slash hr hr']
  simp only [makeRatio, span_slash (intDigits_no_slash hr hr' n), mpzSetStr_intDigits hr hr' n, hz]
  rw [if_neg (by omega)]
  simp [hg, hs]

/-- A byte that is not a digit stays. -/
theorem digits_rest {radix : Nat} {c : Byte} (hc : digitIn radix c = none) :
    ∀ (bs : List Byte) (a : Nat), c ∈ bs → (digits radix a bs).2 ≠ []
  | [], _, h => by simp at h
  | b :: bs, a, h => by
    rw [digits]
    cases hb : digitIn radix b with
    | none => simp
    | some v =>
      rcases List.mem_cons.1 h with rfl | h
      · rw [hc] at hb; cases hb
      · exact digits_rest hc bs _ h

theorem mem_minus {c : Byte} (h45 : c ≠ 45) {bs : List Byte} (h : c ∈ bs) : c ∈ (minus bs).2 := by
  cases bs with
  | nil => simp at h
  | cons a l =>
    rw [minus]
    split
    · rename_i e
      rcases List.mem_cons.1 h with rfl | h
      · exact absurd e h45
      · exact h
    · exact h

theorem mem_dropWhile {p : Byte → Bool} {c : Byte} (hc : p c = false) : ∀ {bs : List Byte}, c ∈ bs →
    c ∈ bs.dropWhile p
  | [], h => by simp at h
  | b :: bs, h => by
    rw [List.dropWhile_cons]
    split
    · rename_i e
      rcases List.mem_cons.1 h with rfl | h
      · rw [hc] at e; cases e
      · exact mem_dropWhile hc h
    · exact h

theorem mpzSetStr_stays {radix : Nat} {c : Byte} (hc : digitIn radix c = none) (h45 : c ≠ 45)
    (hs : isSpaceByte c = false) {bs : List Byte} (h : c ∈ bs) : mpzSetStr bs radix = none := by
  have h₁ := mem_minus h45 (mem_dropWhile hs h)
  unfold mpzSetStr
  dsimp only
  generalize minus (bs.dropWhile isSpaceByte) = m at h₁
  obtain ⟨neg, ds⟩ := m
  cases ds with
  | nil => simp at h₁
  | cons d ds =>
    dsimp only
    cases hd : digitIn radix d with
    | none => rfl
    | some v =>
      dsimp only
      have h₂ : c ∈ (d :: ds).filter fun b => !isSpaceByte b := by
        rw [List.mem_filter]
        exact ⟨h₁, by simp [hs]⟩
      have h₃ := digits_rest hc _ 0 h₂
      generalize digits radix 0 ((d :: ds).filter fun b => !isSpaceByte b) = r at h₃
      obtain ⟨n, rest⟩ := r
      cases rest with
      | nil => exact absurd rfl h₃
      | cons b bs => rfl

theorem makeInteger_stays {radix : Nat} {c : Byte} (hc : digitIn radix c = none) (h45 : c ≠ 45)
    (h43 : c ≠ 43) (hs : isSpaceByte c = false) {bs : List Byte} (h : c ∈ bs) :
    makeInteger bs radix = none := by
  have hp : c ∈ dropPlus bs := by
    cases bs with
    | nil => simp at h
    | cons a l =>
      rw [dropPlus]
      split
      · rename_i e
        rcases List.mem_cons.1 h with rfl | h
        · exact absurd e h43
        · exact h
      · exact h
  unfold makeInteger
  rw [mpzSetStr_stays hc h45 hs hp]
  dsimp only
  have h₁ := mem_minus h45 h
  unfold fromChars
  generalize minus bs = m at h₁
  obtain ⟨neg, ds⟩ := m
  cases ds with
  | nil => rfl
  | cons d ds =>
    dsimp only
    cases hd : digitIn radix d with
    | none => rfl
    | some v =>
      dsimp only
      have h₃ := digits_rest hc _ 0 h₁
      generalize digits radix 0 (d :: ds) = r at h₃
      obtain ⟨n, rest⟩ := r
      dsimp only at h₃ ⊢
      generalize (if neg = true then -(n : Int) else n) = v
      by_cases hv : -2 ^ 63 ≤ v ∧ v < 2 ^ 63
      · rw [if_pos hv]
        dsimp only
        rw [if_pos h₃]
      · rw [if_neg hv]

theorem makeRatio_stays {radix : Nat} {c : Byte} (hc : digitIn radix c = none) (h45 : c ≠ 45)
    (h47 : c ≠ 47) (hs : isSpaceByte c = false) {bs : List Byte} (h : c ∈ bs) :
    makeRatio bs radix = .invalid := by
  unfold makeRatio
  rw [List.span_eq_takeWhile_dropWhile]
  have hm : c ∈ bs.takeWhile (fun x => decide (x ≠ 47)) ∨ c ∈ bs.dropWhile (fun x => decide (x ≠ 47)) := by
    rw [← List.mem_append, List.takeWhile_append_dropWhile]
    exact h
  have hd : ∀ b l, bs.dropWhile (fun x => decide (x ≠ 47)) = b :: l → b = 47 := by
    intro b l e
    have := List.head?_dropWhile_not (fun x : Byte => decide (x ≠ 47)) bs
    rw [e] at this
    simpa using this
  generalize bs.takeWhile (fun x => decide (x ≠ 47)) = t at hm
  generalize bs.dropWhile (fun x => decide (x ≠ 47)) = l at hm hd
  cases l with
  | nil =>
    rcases hm with hm | hm
    · simp only [mpzSetStr_stays hc h45 hs hm]
    · simp at hm
  | cons b l =>
    have hb := hd b l rfl
    rcases hm with hm | hm
    · simp only [mpzSetStr_stays hc h45 hs hm]
    · have hl : c ∈ l := by
        rcases List.mem_cons.1 hm with rfl | hm
        · exact absurd hb h47
        · exact hm
      dsimp only
      rw [mpzSetStr_stays hc h45 hs hl]
      cases mpzSetStr t radix <;> rfl

theorem mem_dropSign {c : Byte} (h43 : c ≠ 43) (h45 : c ≠ 45) {bs : List Byte} (h : c ∈ bs) :
    c ∈ dropSign bs := by
  cases bs with
  | nil => simp at h
  | cons a l =>
    rw [dropSign]
    split
    · rename_i e
      rcases List.mem_cons.1 h with rfl | h
      · exact absurd e (by simp [h43, h45])
      · exact h
    · exact h

theorem exponentPart_i {bs : List Byte} (h : (105 : Byte) ∈ bs) : exponentPart bs = false := by
  cases bs with
  | nil => simp at h
  | cons b bs =>
    rw [exponentPart]
    split
    · rename_i hb
      have hm : (105 : Byte) ∈ bs := by
        rcases List.mem_cons.1 h with rfl | h
        · exact absurd hb (by decide)
        · exact h
      have := mem_dropSign (by decide) (by decide) hm
      rw [Bool.and_eq_false_iff]
      right
      rw [List.all_eq_false]
      exact ⟨105, this, by decide⟩
    · rfl

theorem isDecimal_i {bs : List Byte} (h : (105 : Byte) ∈ bs) : isDecimal bs = false := by
  unfold isDecimal
  have h₁ := mem_dropSign (by decide) (by decide) h
  generalize dropSign bs = l at h₁
  unfold isUnsignedDecimal
  rw [List.span_eq_takeWhile_dropWhile]
  have h₂ := mem_dropWhile (p := isDigitByte) (by decide) h₁
  generalize l.dropWhile isDigitByte = r at h₂
  generalize l.takeWhile isDigitByte = w
  cases r with
  | nil => simp at h₂
  | cons c rest =>
    dsimp only
    split
    · rename_i hc
      have h₃ : (105 : Byte) ∈ rest := by
        rcases List.mem_cons.1 h₂ with rfl | h
        · exact absurd hc (by decide)
        · exact h
      rw [List.span_eq_takeWhile_dropWhile]
      dsimp only
      rw [exponentPart_i (mem_dropWhile (by decide) h₃), Bool.and_false]
    · rw [exponentPart_i h₂, Bool.and_false]

/-- A literal that ends in `i` is not a real number. -/
theorem makeReal_i (bs : List Byte) : makeReal (bs ++ [105]) 10 = .invalid := by
  have hm : (105 : Byte) ∈ bs ++ [105] := by simp
  rw [makeReal, makeInteger_stays (by decide) (by decide) (by decide) (by decide) hm,
    makeRatio_stays (by decide) (by decide) (by decide) (by decide) hm]
  dsimp only
  rw [if_neg]
  rintro (h | h)
  · have hl : (bs ++ [105]).getLast? = some 105 := by simp
    simp only [constants, List.mem_cons, List.not_mem_nil, or_false] at h
    rcases h with h | h | h | h <;> · rw [h] at hl; exact absurd hl (by decide)
  · rw [isDecimal_i hm] at h
    cases h

/-- The parts of a rectangular literal. -/
theorem makeNumber_rectangular {s u : List Byte} {c : Byte} (hs : s ≠ []) (hc : isSignByte c = true)
    (hu : ∀ b ∈ u, isSignByte b = false) (hu' : u ≠ []) :
    makeNumber (s ++ c :: u ++ [105]) 10 = .pair .rectangular (makeReal s 10) (makeReal (c :: u) 10) := by
  rw [makeNumber, makeReal_i]
  dsimp only
  unfold makeComplex
  have e : (s ++ c :: u ++ [105]).reverse = 105 :: (u.reverse ++ c :: s.reverse) := by simp
  have hp : ∀ b ∈ u.reverse, (!isSignByte b) = true := by
    intro b hb
    rw [hu b (by simpa using hb)]
    rfl
  rw [e]
  dsimp only
  rw [if_pos rfl, List.span_eq_takeWhile_dropWhile, List.takeWhile_append_of_pos hp,
    List.dropWhile_append_of_pos hp]
  simp only [List.takeWhile_cons, List.dropWhile_cons, hc, Bool.not_true, Bool.false_eq_true, if_false,
    List.append_nil, List.reverse_reverse]
  rw [if_neg hs, if_neg]
  simpa using hu'

theorem natDigits_no_sign (n : Nat) : ∀ b ∈ natDigits 10 n, isSignByte b = false := by
  intro b hb
  obtain ⟨d, hd, rfl⟩ := natDigits_digit (by omega) n b hb
  clear hb
  interval_cases d <;> decide

theorem natDigits_decimal (n : Nat) : ∀ b ∈ natDigits 10 n, isDigitByte b = true := by
  intro b hb
  obtain ⟨d, hd, rfl⟩ := natDigits_digit (by omega) n b hb
  clear hb
  interval_cases d <;> decide

theorem span_all {p : Byte → Bool} {s t : List Byte} (h : ∀ b ∈ s, p b = true)
    (ht : ∀ b ∈ t.head?, p b = false) : (s ++ t).span p = (s, t) := by
  rw [List.span_eq_takeWhile_dropWhile, List.takeWhile_append_of_pos h, List.dropWhile_append_of_pos h]
  cases t with
  | nil => simp
  | cons b t => simp [ht b (by simp)]

theorem mpzSetStr_plus (u : List Byte) : mpzSetStr (43 :: u) 10 = none := by
  have h₁ : isSpaceByte 43 = false := by decide
  have h₂ : digitIn 10 43 = none := by decide
  simp only [mpzSetStr, List.dropWhile_cons, h₁, Bool.false_eq_true, if_false, minus,
    show (43 : Byte) ≠ 45 by decide, h₂]

/-- A literal with a plus sign is no exact number. -/
theorem makeReal_plus (u : List Byte) : makeReal (43 :: u) 10 =
    if 43 :: u ∈ constants ∨ isDecimal (43 :: u) then .number (.inexact (43 :: u)) else .invalid := by
  have hi : makeInteger (43 :: u) 10 = none := by
    have h₂ : digitIn 10 43 = none := by decide
    simp only [makeInteger, fromChars, minus, show (43 : Byte) ≠ 45 by decide, if_false, h₂]
  have hr : makeRatio (43 :: u) 10 = .invalid := by
    unfold makeRatio
    rw [List.span_eq_takeWhile_dropWhile]
    have : List.takeWhile (fun x : Byte => decide (x ≠ 47)) (43 :: u) =
        43 :: u.takeWhile (fun x : Byte => decide (x ≠ 47)) := by
      rw [List.takeWhile_cons]
      rfl
    rw [this]
    generalize (43 :: u).dropWhile (fun x : Byte => decide (x ≠ 47)) = l
    cases l with
    | nil => simp only [mpzSetStr_plus]
    | cons c l => simp only [mpzSetStr_plus]
  rw [makeReal, hi, hr]

theorem makeReal_plus_int (n : Nat) :
    makeReal (43 :: natDigits 10 n) 10 = .number (.inexact (43 :: natDigits 10 n)) := by
  rw [makeReal_plus, if_pos]
  right
  have := span_all (p := isDigitByte) (t := []) (natDigits_decimal n) (by simp)
  rw [List.append_nil] at this
  have hne := natDigits_ne_nil (radix := 10) (by omega) n
  simp only [isDecimal, dropSign, true_or, if_true, isUnsignedDecimal, this]
  simpa using hne

theorem makeReal_plus_ratio (n d : Nat) :
    makeReal (43 :: (natDigits 10 n ++ 47 :: natDigits 10 d)) 10 = .invalid := by
  rw [makeReal_plus, if_neg]
  rintro (h | h)
  · have h₁ : (47 : Byte) ∈ 43 :: (natDigits 10 n ++ 47 :: natDigits 10 d) := by simp
    simp only [constants, List.mem_cons, List.not_mem_nil, or_false] at h
    rcases h with h | h | h | h <;> · rw [h] at h₁; exact absurd h₁ (by decide)
  · have := span_all (p := isDigitByte) (t := 47 :: natDigits 10 d) (natDigits_decimal n) (by
      intro b hb
      simp at hb
      subst hb
      decide)
    simp only [isDecimal, dropSign, true_or, if_true, isUnsignedDecimal, this,
      show (47 : Byte) ≠ 46 by decide, if_false, exponentPart] at h
    simp at h

end Meevax.Text
