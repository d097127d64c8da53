import Verif.Lemmas.NumberSyntax
import Verif.Lemmas.Utf8
import Verif.Spec.Text

/-! The reader on written text. -/

namespace Meevax.Text

theorem Ends.good (rest : List Byte) : Ends rest { rest := rest } := ⟨rfl, fun _ => rfl⟩

/-! ### ASCII -/

theorem utf8Encode_ascii {c : Char} (h : c.toNat ≤ 127) :
    String.utf8EncodeChar c = [.ofNat c.toNat] := by
  have e : c.val.toNat = c.toNat := rfl
  simp [String.utf8EncodeChar, e, h]

/-- The character of an ASCII byte. -/
theorem exists_char (b : Byte) : ∃ c : Char, c.toNat = b.toNat := by
  have hb := b.toNat_lt
  refine ⟨Char.ofNat b.toNat, ?_⟩
  have hv : b.toNat.isValidChar := by
    left; omega
  simp [Char.ofNat, hv, Char.ofNatAux, Char.toNat]

theorem take_ascii {b : Byte} (h : b.toNat ≤ 127) (r : List Byte) :
    Port.take { rest := b :: r } = (.char b.toNat, { rest := r }) := by
  obtain ⟨c, hc⟩ := exists_char b
  have := take_encoded c r
  rw [utf8Encode_ascii (by omega), hc] at this
  simpa using this

theorem peek_ascii {b : Byte} (h : b.toNat ≤ 127) (h0 : b ≠ 0) (r : List Byte) :
    Port.peek { rest := b :: r } = (.char b.toNat, { rest := b :: r }) := by
  obtain ⟨c, hc⟩ := exists_char b
  have hn : c ≠ '\x00' := by
    rintro rfl
    apply h0
    apply UInt8.toNat_inj.1
    rw [← hc]
    rfl
  have := peek_encoded hn r
  rw [utf8Encode_ascii (by omega), hc] at this
  simpa using this

theorem isSpecial_ascii {c : Nat} (h : isSpecial c = true) : c ≤ 127 ∧ c ≠ 0 := by
  simp [isSpecial] at h
  omega

theorem peek_special {b : Byte} (h : isSpecial b.toNat = true) (r : List Byte) :
    Port.peek { rest := b :: r } = (.char b.toNat, { rest := b :: r }) := by
  obtain ⟨h1, h2⟩ := isSpecial_ascii h
  refine peek_ascii h1 ?_ r
  rintro rfl
  exact h2 rfl

/-- Peeking at the end of a token. -/
theorem peek_delimited {rest : List Byte} (d : Delimited rest) :
    ∃ t p, Port.peek { rest := rest } = (t, p) ∧ Ends rest p ∧
      (t = .eof ∨ ∃ c, t = .char c ∧ isSpecial c = true) := by
  rcases d with rfl | ⟨b, bs, rfl, hb⟩
  · exact ⟨_, _, peek_end, ⟨rfl, fun h => (h rfl).elim⟩, Or.inl rfl⟩
  · exact ⟨_, _, peek_special hb bs, Ends.good _, Or.inr ⟨_, rfl, hb⟩⟩

/-! ### Tokens -/

/-- A character that continues a token. -/
def Plain (c : Char) : Prop := c ≠ '\x00' ∧ isSpecial c.toNat = false

theorem takeTokenLoop_plain {cs : List Char} (h : ∀ c ∈ cs, Plain c) {rest : List Byte}
    (d : Delimited rest) :
    ∃ p, takeTokenLoop { rest := encode cs ++ rest } = some (.ok (cs.map Char.toNat), p) ∧
      Ends rest p := by
  induction cs with
  | nil =>
    obtain ⟨t, p, e, ends, ht⟩ := peek_delimited d
    refine ⟨p, ?_, ends⟩
    rw [takeTokenLoop, encode, List.flatMap_nil, List.nil_append, e]
    rcases ht with rfl | ⟨c, rfl, hc⟩
    · rfl
    · simp [hc]
  | cons c cs ih =>
    obtain ⟨p, e, ends⟩ := ih fun c hc => h c (by simp [hc])
    obtain ⟨h0, hs⟩ := h c (by simp)
    refine ⟨p, ?_, ends⟩
    rw [takeTokenLoop, encode, List.flatMap_cons, List.append_assoc, peek_encoded h0]
    simp only [hs, Bool.false_eq_true, if_false, take_encoded]
    simp only [encode] at e
    simp [e]

theorem takeToken_plain {c : Char} {cs : List Char} (h0 : c ≠ '\x00') (h : ∀ c ∈ cs, Plain c)
    {rest : List Byte} (d : Delimited rest) :
    ∃ p, takeToken c.toNat { rest := encode cs ++ rest } = some (.ok (encode (c :: cs)), p) ∧
      Ends rest p := by
  obtain ⟨p, e, ends⟩ := takeTokenLoop_plain h d
  refine ⟨p, ?_, ends⟩
  have : ∀ x ∈ c :: cs, x ≠ '\x00' := by
    intro x hx
    rcases List.mem_cons.1 hx with rfl | hx
    · exact h0
    · exact (h x hx).1
  have e2 := utf8String_chars this
  simp only [List.map_cons] at e2
  simp [takeToken, e, e2]

/-- ASCII bytes that continue a token. -/
def PlainBytes (bs : List Byte) : Prop := ∀ b ∈ bs, b.toNat ≤ 127 ∧ b ≠ 0 ∧ isSpecial b.toNat = false

theorem PlainBytes.encode {bs : List Byte} (h : PlainBytes bs) :
    ∃ cs : List Char, bs = encode cs ∧ ∀ c ∈ cs, Plain c := by
  induction bs with
  | nil => exact ⟨[], rfl, by simp⟩
  | cons b bs ih =>
    obtain ⟨cs, rfl, hcs⟩ := ih fun b hb => h b (by simp [hb])
    obtain ⟨h1, h2, h3⟩ := h b (by simp)
    obtain ⟨c, hc⟩ := exists_char b
    refine ⟨c :: cs, ?_, ?_⟩
    · simp only [Text.encode]
      rw [List.flatMap_cons, utf8Encode_ascii (by omega), hc]
      simp
    · intro x hx
      rcases List.mem_cons.1 hx with rfl | hx
      · refine ⟨?_, by rw [hc]; exact h3⟩
        rintro rfl
        apply h2
        apply UInt8.toNat_inj.1
        rw [← hc]
        rfl
      · exact hcs x hx

theorem takeToken_ascii {b : Byte} {bs : List Byte} (hb : b.toNat ≤ 127) (h0 : b ≠ 0)
    (h : PlainBytes bs) {rest : List Byte} (d : Delimited rest) :
    ∃ p, takeToken b.toNat { rest := bs ++ rest } = some (.ok (b :: bs), p) ∧ Ends rest p := by
  obtain ⟨cs, rfl, hcs⟩ := h.encode
  obtain ⟨c, hc⟩ := exists_char b
  have hn : c ≠ '\x00' := by
    rintro rfl
    apply h0
    apply UInt8.toNat_inj.1
    rw [← hc]
    rfl
  obtain ⟨p, e, ends⟩ := takeToken_plain hn hcs d
  refine ⟨p, ?_, ends⟩
  rw [← hc, e, encode, List.flatMap_cons, utf8Encode_ascii (by omega), hc]
  simp

/-! ### Skipping to a character -/

theorem takeUntil_ascii {stop : Nat → Bool} {bs : List Byte} {e : Byte} (he : e.toNat ≤ 127)
    (hs : stop e.toNat = true) (h : ∀ b ∈ bs, b.toNat ≤ 127 ∧ stop b.toNat = false)
    (rest : List Byte) :
    Port.takeUntil stop { rest := bs ++ e :: rest } = some (bs, { rest := rest }) := by
  induction bs with
  | nil =>
    rw [Port.takeUntil, List.nil_append, take_ascii he]
    simp [Port.ready, hs]
  | cons b bs ih =>
    obtain ⟨h1, h2⟩ := h b (by simp)
    rw [Port.takeUntil, List.cons_append, take_ascii h1]
    simp [Port.ready, h2, ih fun b hb => h b (by simp [hb])]

/-- Skipping any text up to an ASCII character. -/
theorem takeUntil_chars {stop : Nat → Bool} {cs : List Char} {e : Byte} (he : e.toNat ≤ 127)
    (hs : stop e.toNat = true) (h : ∀ c ∈ cs, stop c.toNat = false) (rest : List Byte) :
    ∃ s, Port.takeUntil stop { rest := encode cs ++ e :: rest } = some (s, { rest := rest }) := by
  induction cs with
  | nil =>
    refine ⟨[], ?_⟩
    rw [Port.takeUntil, encode, List.flatMap_nil, List.nil_append, take_ascii he]
    simp [Port.ready, hs]
  | cons c cs ih =>
    obtain ⟨s, e'⟩ := ih fun c hc => h c (by simp [hc])
    refine ⟨.ofNat c.toNat :: s, ?_⟩
    · rw [Port.takeUntil, encode, List.flatMap_cons, List.append_assoc, take_encoded]
      simp only [encode] at e'
      simp only [Port.ready, Bool.not_false, if_true, h c (by simp), Bool.false_eq_true, if_false, e']
      rfl

/-! ### Quoted text -/

theorem digitIn_upper {d : Nat} (h : d < 16) :
    digitIn 16 (if 97 ≤ natDigits.digitChar d ∧ natDigits.digitChar d ≤ 122 then
      natDigits.digitChar d - 32 else natDigits.digitChar d) = some d := by
  interval_cases d <;> decide

theorem upper_props {d : Nat} (h : d < 16) (b : Byte)
    (hb : b = if 97 ≤ natDigits.digitChar d ∧ natDigits.digitChar d ≤ 122 then
      natDigits.digitChar d - 32 else natDigits.digitChar d) :
    b.toNat ≤ 127 ∧ b ≠ 59 ∧ b ≠ 120 ∧ b ≠ 88 ∧ b ≠ 43 ∧ b ≠ 45 ∧ isSpaceByte b = false := by
  subst hb
  interval_cases d <;> decide

theorem digits_map {f : Byte → Byte} : ∀ {bs : List Byte} {acc : Nat},
    (∀ b ∈ bs, digitIn 16 (f b) = digitIn 16 b) →
    (∀ b ∈ bs, ∃ d, digitIn 16 b = some d) → digits 16 acc (bs.map f) = digits 16 acc bs := by
  intro bs
  induction bs with
  | nil => intros; rfl
  | cons b bs ih =>
    intro acc h h'
    obtain ⟨d, hd⟩ := h' b (by simp)
    rw [List.map_cons, digits, digits, h b (by simp), hd]
    exact ih (fun b hb => h b (by simp [hb])) (fun b hb => h' b (by simp [hb]))

theorem upperHex_mem {n : Nat} {b : Byte} (hb : b ∈ upperHex n) :
    ∃ d, d < 16 ∧ b = if 97 ≤ natDigits.digitChar d ∧ natDigits.digitChar d ≤ 122 then
      natDigits.digitChar d - 32 else natDigits.digitChar d := by
  obtain ⟨x, hx, rfl⟩ := List.mem_map.1 hb
  obtain ⟨d, hd, rfl⟩ := natDigits_digit (by omega) n x hx
  exact ⟨d, hd, rfl⟩

theorem upperHex_digits (n : Nat) : digits 16 0 (upperHex n) = (n, []) := by
  rw [upperHex, digits_map, digits_natDigits (by omega) (by omega)]
  · intro b hb
    obtain ⟨d, hd, rfl⟩ := natDigits_digit (by omega) n b hb
    rw [digitIn_upper hd, digitIn_digitChar (by omega) hd]
  · intro b hb
    obtain ⟨d, hd, rfl⟩ := natDigits_digit (by omega) n b hb
    exact ⟨d, digitIn_digitChar (by omega) hd⟩

theorem hexCast_upperHex {n : Nat} (h : n < 2 ^ 31) : hexCast (upperHex n) = .ok n := by
  have hd := upperHex_digits n
  have hm := fun b => @upperHex_mem n b
  cases e : upperHex n with
  | nil => simp [upperHex, natDigits_ne_nil (radix := 16) (by omega) n] at e
  | cons a bs =>
    rw [e] at hd hm
    obtain ⟨d, hdl, ha⟩ := hm a (by simp)
    obtain ⟨-, -, -, -, ha1, ha2, ha3⟩ := upper_props hdl a ha
    have hdig : digitIn 16 a = some d := by rw [ha]; exact digitIn_upper hdl
    rw [hexCast]
    simp only [List.dropWhile_cons, ha3, Bool.false_eq_true, if_false]
    cases bs with
    | nil => simp only [ha1, ha2, hdig, hd, h]; simp
    | cons b bs =>
      obtain ⟨d', hdl', hb⟩ := hm b (by simp)
      obtain ⟨-, -, hb1, hb2, -⟩ := upper_props hdl' b hb
      have h' : n < 2147483648 := h
      simp [ha1, ha2, hdig, hd, h', hb1, hb2]

/-- One written character, read back inside quotes. -/
theorem takeQuoted_putChar {high : Nat → Bool} {c : Nat} (hc : c < 2 ^ 31)
    (hh : 255 < c → high c = false) {mark : Nat} (hm : mark = 34 ∨ mark = 124) {rest : List Byte} {cs : List Nat}
    {p : Port} (ih : takeQuoted mark { rest := rest } = some (.ok cs, p)) :
    takeQuoted mark { rest := putChar high c ++ rest } = some (.ok (c :: cs), p) := by
  have h92 : (92 : Nat) ≠ mark := by omega
  have esc : ∀ (b : Byte), b.toNat ≤ 127 → b.toNat ≠ 120 → b.toNat ≠ 10 → b.toNat ≠ 13 →
      takeQuoted mark { rest := 92 :: b :: rest } = some (.ok (escaped b.toNat :: cs), p) := by
    intro b hb h1 h2 h3
    rw [takeQuoted, take_ascii (by decide)]
    have e : UInt8.toNat 92 = 92 := rfl
    simp only [e, h92, if_false, if_true, take_ascii hb, h1, h2, h3, or_self, ih]
    rfl
  unfold putChar
  split
  · rename_i hp
    have hp' : 0x20 ≤ c ∧ c ≤ 0x7E := by
      unfold isPrint at hp
      split at hp
      · simpa using hp
      · rw [hh (by omega)] at hp
        cases hp
    rw [if_neg (by omega), if_neg (by omega), if_neg (by omega), if_neg (by omega),
      if_neg (by omega)]
    split
    · rename_i e; subst e
      exact esc 34 (by decide) (by decide) (by decide) (by decide)
    · split
      · rename_i e; subst e
        exact esc 92 (by decide) (by decide) (by decide) (by decide)
      · split
        · rename_i e; subst e
          exact esc 124 (by decide) (by decide) (by decide) (by decide)
        · have e : (UInt8.ofNat c).toNat = c := by simp; omega
          rw [takeQuoted, List.cons_append, take_ascii (by omega), e]
          have n1 : c ≠ mark := by omega
          have n2 : c ≠ 92 := by omega
          simp only [n1, n2, if_false, List.nil_append, ih]
          rfl
  · have e : ascii "\\x" ++ upperHex c ++ ascii ";" ++ rest = 92 :: 120 :: (upperHex c ++ 59 :: rest) := by
      simp [ascii]
    rw [e, takeQuoted, take_ascii (by decide)]
    have e92 : UInt8.toNat 92 = 92 := rfl
    have e120 : UInt8.toNat 120 = 120 := rfl
    simp only [e92, h92, if_false, if_true]
    rw [take_ascii (by decide)]
    simp only [e120, if_true]
    rw [takeUntil_ascii (by decide) (by decide)]
    · simp only [hexCast_upperHex hc, ih]
      rfl
    · intro b hb
      obtain ⟨d, hd, hb'⟩ := upperHex_mem hb
      obtain ⟨h1, h2, -⟩ := upper_props hd b hb'
      refine ⟨h1, ?_⟩
      simp only [decide_eq_false_iff_not]
      intro h
      exact h2 (UInt8.toNat_inj.1 h)

/-- Written text, read back inside quotes. -/
theorem takeQuoted_written {high : Nat → Bool} {cs : List Nat}
    (h : ∀ c ∈ cs, c < 2 ^ 31 ∧ (255 < c → high c = false)) (rest : List Byte) :
    takeQuoted 34 { rest := cs.flatMap (putChar high) ++ 34 :: rest } =
      some (.ok cs, { rest := rest }) := by
  induction cs with
  | nil =>
    rw [takeQuoted, List.flatMap_nil, List.nil_append, take_ascii (by decide)]
    rfl
  | cons c cs ih =>
    obtain ⟨h1, h2⟩ := h c (by simp)
    rw [List.flatMap_cons, List.append_assoc, takeQuoted_putChar h1 h2 (Or.inl rfl)
      (ih fun c hc => h c (by simp [hc]))]

end Meevax.Text
