import Verif.Lemmas.Reader

/-! `read` on written data. -/

namespace Meevax.Text

/-! ### One step of the reader -/

theorem read_white {b : Byte} (h : isWhite b.toNat = true) (r : List Byte) :
    read 0 { rest := b :: r } = read 0 { rest := r } := by
  have hb : b.toNat ≤ 127 := by
    simp [isWhite] at h
    omega
  conv_lhs => rw [read.eq_def]
  simp [Port.ready, take_ascii hb, h]

theorem read_hash (r : List Byte) : read 0 { rest := 35 :: r } = readHash { rest := r } := by
  rw [read.eq_def]
  simp [Port.ready, take_ascii (b := 35) (by decide), isWhite]

theorem read_close (r : List Byte) : read 0 { rest := 41 :: r } = some (.close, { rest := r }) := by
  rw [read.eq_def]
  simp [Port.ready, take_ascii (b := 41) (by decide), isWhite]

theorem read_open (r : List Byte) : read 0 { rest := 40 :: r } = read 40 { rest := r } := by
  rw [read.eq_def, read.eq_def 40]
  simp [Port.ready, take_ascii (b := 40) (by decide), isWhite]

theorem read_string {r : List Byte} {cs : List Nat} {p : Port}
    (h : takeQuoted 34 { rest := r } = some (.ok cs, p)) :
    read 0 { rest := 34 :: r } = some (.datum (.string cs), p) := by
  rw [read.eq_def]
  simp [Port.ready, take_ascii (b := 34) (by decide), isWhite, h]

theorem read_bar {r : List Byte} {cs : List Nat} {p : Port}
    (h : takeQuoted 124 { rest := r } = some (.ok cs, p)) :
    read 0 { rest := 124 :: r } = some (.datum (.symbol (utf8String cs)), p) := by
  rw [read.eq_def]
  simp [Port.ready, take_ascii (b := 124) (by decide), isWhite, h]

theorem plain_ne {c : Nat} (h : isSpecial c = false) : isWhite c = false ∧ c ≠ 34 ∧ c ≠ 35 ∧ c ≠ 39 ∧
    c ≠ 40 ∧ c ≠ 41 ∧ c ≠ 44 ∧ c ≠ 59 ∧ c ≠ 96 ∧ c ≠ 124 ∧
    ¬ (c = 91 ∨ c = 93 ∨ c = 123 ∨ c = 125) := by
  simp [isSpecial, isWhite] at h ⊢
  omega

theorem read_token {c : Char} (h : Plain c) {r s : List Byte} {p : Port}
    (ht : takeToken c.toNat { rest := r } = some (.ok s, p)) :
    read 0 { rest := String.utf8EncodeChar c ++ r } =
      if s = [46] then some (.dot, p)
      else
        match makeNumber s 10 with
        | .number n => some (.datum (.num n), p)
        | .invalid => some (.datum (.symbol s), p)
        | .crash => some (.beyond, p) := by
  obtain ⟨hw, h1, h2, h3, h4, h5, h6, h7, h8, h9, h10⟩ := plain_ne h.2
  rw [read.eq_def]
  simp only [Port.ready, Bool.not_false, if_true, ne_eq, not_true_eq_false, if_false, take_encoded, hw,
    Bool.false_eq_true, h1, h2, h3, h4, h5, h6, h7, h8, h9, h10, ht]
  rfl

/-- A token of ASCII characters. -/
theorem read_ascii_token {b : Byte} {bs : List Byte} (h : PlainBytes (b :: bs)) {rest : List Byte}
    (d : Delimited rest) : ∃ p, Ends rest p ∧ read 0 { rest := b :: bs ++ rest } =
      if b :: bs = [46] then some (.dot, p)
      else
        match makeNumber (b :: bs) 10 with
        | .number n => some (.datum (.num n), p)
        | .invalid => some (.datum (.symbol (b :: bs)), p)
        | .crash => some (.beyond, p) := by
  obtain ⟨h1, h2, h3⟩ := h b (by simp)
  obtain ⟨p, ht, ends⟩ := takeToken_ascii (bs := bs) h1 h2 (fun x hx => h x (by simp [hx])) d
  obtain ⟨c, hc⟩ := exists_char b
  have hn : c ≠ '\x00' := by
    rintro rfl
    apply h2
    apply UInt8.toNat_inj.1
    rw [← hc]
    rfl
  rw [← hc] at ht h3
  have := read_token ⟨hn, h3⟩ ht
  rw [utf8Encode_ascii (by omega), hc] at this
  refine ⟨p, ends, ?_⟩
  rw [UInt8.ofNat_toNat] at this
  exact this

/-- Lists: the rest of a list after its first element. -/
theorem read_list {p0 p1 p2 : Port} (h0 : p0.ready = true) {x y : Datum}
    (h1 : read 0 p0 = some (.datum x, p1)) (h2 : read 40 p1 = some (.datum y, p2)) :
    read 40 p0 = some (.datum (.cons x y), p2) := by
  rw [read.eq_def]
  simp [h0, isWhite, h1, h2]

theorem read_list_end {p0 p1 : Port} (h0 : p0.ready = true)
    (h1 : read 0 p0 = some (.close, p1)) : read 40 p0 = some (.datum .null, p1) := by
  rw [read.eq_def]
  simp [h0, isWhite, h1]

theorem read_list_dot {p0 p1 : Port} (h0 : p0.ready = true)
    (h1 : read 0 p0 = some (.dot, p1)) : read 40 p0 = readTail p1 := by
  rw [read.eq_def]
  simp [h0, isWhite, h1]

theorem read_list_white {b : Byte} (h : isWhite b.toNat = true) (r : List Byte) :
    read 40 { rest := b :: r } = read 40 { rest := r } := by
  rw [read.eq_def, read.eq_def 40 { rest := r }]
  simp [Port.ready, isWhite, read_white h]

theorem special_space : isSpecial (UInt8.toNat 32) = true := by decide
theorem special_close : isSpecial (UInt8.toNat 41) = true := by decide
theorem special_open : isSpecial (UInt8.toNat 40) = true := by decide
theorem white_space : isWhite (UInt8.toNat 32) = true := by decide

theorem delimited_cons {b : Byte} (h : isSpecial b.toNat = true) (r : List Byte) :
    Delimited (b :: r) := Or.inr ⟨b, r, rfl, h⟩

theorem Ends.eq {b : Byte} {r : List Byte} {p : Port} (h : Ends (b :: r) p) : p = { rest := b :: r } :=
  h.2 (by simp)

/-! ### Atoms -/

/-- `s` is a written form of `d`. -/
def Reads (s : List Byte) (d : Datum) : Prop :=
  ∀ rest, Delimited rest → ∃ p, read 0 { rest := s ++ rest } = some (.datum d, p) ∧ Ends rest p

theorem natDigits_plain (n : Nat) : PlainBytes (natDigits 10 n) := by
  intro b hb
  obtain ⟨d, hd, rfl⟩ := natDigits_digit (by omega) n b hb
  clear hb
  interval_cases d <;> decide

theorem intDigits_plain (n : Int) : PlainBytes (intDigits 10 n) := by
  unfold intDigits
  split
  · intro b hb
    rcases List.mem_cons.1 hb with rfl | hb
    · decide
    · exact natDigits_plain _ b hb
  · exact natDigits_plain _

/-- A number token. -/
theorem reads_number {s : List Byte} (h : PlainBytes s) {n : Num}
    (hn : makeNumber s 10 = .number n) (h46 : s ≠ [46]) (hs : s ≠ []) : Reads s (.num n) := by
  intro rest d
  cases s with
  | nil => exact (hs rfl).elim
  | cons b bs =>
    obtain ⟨p, ends, e⟩ := read_ascii_token h d
    rw [if_neg h46, hn] at e
    exact ⟨p, e, ends⟩

theorem intDigits_ne (n : Int) : intDigits 10 n ≠ [] ∧ intDigits 10 n ≠ [46] := by
  have h := makeNumber_intDigits (radix := 10) (by omega) (by omega) n
  constructor
  · intro e
    rw [e, show makeNumber [] 10 = .invalid by decide] at h
    cases h
  · intro e
    have := intDigits_no_slash (radix := 10) (by omega) (by omega) n
    rw [e] at h
    have : makeNumber [46] 10 = .invalid := makeNumber_name (by decide) (by decide) (by decide)
    rw [this] at h
    cases h

theorem reads_int (n : Int) : Reads (intDigits 10 n) (.num (.int n)) :=
  reads_number (intDigits_plain n) (makeNumber_intDigits (by omega) (by omega) n) (intDigits_ne n).2
    (intDigits_ne n).1

theorem reads_nat (n : Nat) : Reads (natDigits 10 n) (.num (.int n)) := by
  have := reads_int n
  rwa [intDigits, if_neg (by omega)] at this

theorem reads_ratio {n : Int} {d : Nat} (hd : 2 ≤ d) (hc : Nat.Coprime n.natAbs d) :
    Reads (intDigits 10 n ++ 47 :: natDigits 10 d) (.num (.ratio n d)) := by
  apply reads_number _ (makeNumber_ratio (by omega) (by omega) (by omega) hc)
  · intro h
    have hn := natDigits_ne_nil (radix := 10) (by omega) d
    have hi := (intDigits_ne n).1
    have := congrArg List.length h
    simp only [List.length_append, List.length_cons, List.length_nil] at this
    have := List.length_pos_iff.2 hi
    omega
  · simp
  · intro b hb
    rcases List.mem_append.1 hb with hb | hb
    · exact intDigits_plain n b hb
    · rcases List.mem_cons.1 hb with rfl | hb
      · decide
      · exact natDigits_plain d b hb

/-- A written exact real number. -/
theorem writeNum_real {x : Num} (h : ReadableReal x) :
    ∃ s, writeNum x = some s ∧ makeReal s 10 = .number x ∧ PlainBytes s ∧ s ≠ [] := by
  cases x with
  | int n => exact ⟨_, rfl, makeReal_intDigits (by omega) (by omega) n, intDigits_plain n, (intDigits_ne n).1⟩
  | ratio n d =>
    obtain ⟨hd, hc⟩ := h
    refine ⟨intDigits 10 n ++ 47 :: natDigits 10 d, ?_, makeReal_ratio (by omega) (by omega) (by omega) hc,
      ?_, by simp⟩
    · rw [writeNum, if_neg (by omega)]
      rfl
    · intro b hb
      rcases List.mem_append.1 hb with hb | hb
      · exact intDigits_plain n b hb
      · rcases List.mem_cons.1 hb with rfl | hb
        · decide
        · exact natDigits_plain d b hb
  | inexact l => exact h.elim
  | rectangular x y => exact h.elim
  | polar x y => exact h.elim

/-- A written negative real number. -/
theorem writeNum_negative {y : Num} (h : ReadableReal y) (hn : NegativeReal y) :
    ∃ u, writeNum y = some (45 :: u) ∧ (∀ b ∈ u, isSignByte b = false) ∧ u ≠ [] ∧ isExactZero y = false := by
  cases y with
  | int n =>
    refine ⟨natDigits 10 n.natAbs, ?_, natDigits_no_sign _, natDigits_ne_nil (by omega) _, ?_⟩
    · have hn : n < 0 := hn
      rw [writeNum, intDigits, if_pos hn]
    · have hn : n < 0 := hn
      simp [isExactZero, hn.ne]
  | ratio n d =>
    obtain ⟨hd, hc⟩ := h
    have hn : n < 0 := hn
    refine ⟨natDigits 10 n.natAbs ++ 47 :: natDigits 10 d, ?_, ?_, by simp, ?_⟩
    · rw [writeNum, if_neg (by omega), intDigits, if_pos hn]
      rfl
    · intro b hb
      rcases List.mem_append.1 hb with hb | hb
      · exact natDigits_no_sign _ b hb
      · rcases List.mem_cons.1 hb with rfl | hb
        · decide
        · exact natDigits_no_sign d b hb
    · simp [isExactZero, hn.ne]
  | inexact l => exact h.elim
  | rectangular x y => exact h.elim
  | polar x y => exact h.elim

theorem reads_rectangular {x y : Num} (hx : ReadableReal x) (hy : ReadableReal y) (hn : NegativeReal y) :
    ∃ s, writeNum (.rectangular x y) = some s ∧ Reads s (.num (.rectangular x y)) := by
  obtain ⟨s, hs, hsr, hsp, hsn⟩ := writeNum_real hx
  obtain ⟨t, ht, htr, htp, htn⟩ := writeNum_real hy
  obtain ⟨u, hu, hus, hun, hz⟩ := writeNum_negative hy hn
  rw [ht] at hu
  cases hu
  refine ⟨s ++ 45 :: u ++ [105], ?_, ?_⟩
  · simp only [writeNum, hz, Bool.false_eq_true, if_false, hs, ht, explicitlySigned, if_true]
    rfl
  · apply reads_number
    · intro b hb
      rcases List.mem_append.1 hb with hb | hb
      · rcases List.mem_append.1 hb with hb | hb
        · exact hsp b hb
        · exact htp b hb
      · rw [List.mem_singleton] at hb
        subst hb
        decide
    · rw [makeNumber_rectangular hsn (by decide) hus hun, hsr, htr]
      rfl
    · intro h
      have := congrArg List.length h
      simp at this
      omega
    · simp

theorem takeWhile_end {keep : Nat → Bool} (hk : ∀ c, isSpecial c = true → keep c = false)
    {rest : List Byte} (d : Delimited rest) :
    ∃ p, Port.takeWhile keep { rest := rest } = some ([], p) ∧ Ends rest p := by
  obtain ⟨t, p, e, ends, ht⟩ := peek_delimited d
  refine ⟨p, ?_, ends⟩
  rw [Port.takeWhile]
  simp only [Port.ready, Bool.not_false, if_true, e]
  rcases ht with rfl | ⟨c, rfl, hc⟩
  · rfl
  · simp [hk c hc]

theorem isDigitChar_special (c : Nat) (h : isSpecial c = true) : isDigitChar c = false := by
  simp [isSpecial] at h
  simp [isDigitChar]
  omega

/-- The token lemma also at a port that has already noticed the end of the input. -/
theorem takeTokenLoop_ends {rest : List Byte} (d : Delimited rest) {p : Port} (h : Ends rest p) :
    ∃ p', takeTokenLoop p = some (.ok [], p') ∧ Ends rest p' := by
  by_cases hr : rest = []
  · subst hr
    obtain ⟨r, e, f⟩ := p
    have : r = [] := h.1
    subst this
    cases e <;> cases f <;>
      exact ⟨_, by rw [takeTokenLoop]; rfl, ⟨rfl, fun h => (h rfl).elim⟩⟩
  · rw [h.2 hr]
    exact takeTokenLoop_plain (cs := []) (by simp) d

theorem reads_true : Reads (ascii "#t") (.bool true) := by
  intro rest d
  obtain ⟨p, e, ends⟩ := takeTokenLoop_plain (cs := []) (by simp) d
  refine ⟨p, ?_, ends⟩
  have : ascii "#t" ++ rest = 35 :: 116 :: rest := by simp [ascii]
  rw [this, read_hash, readHash.eq_def, take_ascii (by decide)]
  simp at e
  simp [isDigitChar, takeToken, e]

theorem reads_false : Reads (ascii "#f") (.bool false) := by
  intro rest d
  obtain ⟨p, e, ends⟩ := takeWhile_end isDigitChar_special d
  obtain ⟨p', e', ends'⟩ := takeTokenLoop_ends d ends
  refine ⟨p', ?_, ends'⟩
  have : ascii "#f" ++ rest = 35 :: 102 :: rest := by simp [ascii]
  rw [this, read_hash, readHash.eq_def, take_ascii (by decide)]
  simp [isDigitChar, takeToken, e, digits] at e ⊢
  simp [e']

theorem reads_string {high : Nat → Bool} {cs : List Nat}
    (h : ∀ c ∈ cs, c < 2 ^ 31 ∧ (255 < c → high c = false)) (rest : List Byte) :
    read 0 { rest := writeString high cs ++ rest } = some (.datum (.string cs), { rest := rest }) := by
  have : writeString high cs ++ rest = 34 :: (cs.flatMap (putChar high) ++ 34 :: rest) := by
    simp [writeString]
  rw [this]
  exact read_string (takeQuoted_written h rest)

theorem read_charHash (r : List Byte) : read 0 { rest := ascii "#\\" ++ r } = readChar { rest := r } := by
  have : ascii "#\\" ++ r = 35 :: 92 :: r := by simp [ascii]
  rw [this, read_hash, readHash.eq_def, take_ascii (by decide)]
  simp [isDigitChar]

/-- A character by itself. -/
theorem readChar_self {c : Char} {rest : List Byte} (d : Delimited rest) :
    ∃ p, readChar { rest := String.utf8EncodeChar c ++ rest } = some (.datum (.char c.toNat), p) ∧
      Ends rest p := by
  obtain ⟨t, p, e, ends, ht⟩ := peek_delimited d
  refine ⟨p, ?_, ends⟩
  rw [readChar, take_encoded]
  simp only [e]
  rcases ht with rfl | ⟨c', rfl, hc'⟩
  · rfl
  · simp [hc']

instance (bs : List Byte) : Decidable (PlainBytes bs) :=
  inferInstanceAs (Decidable (∀ b ∈ bs, b.toNat ≤ 127 ∧ b ≠ 0 ∧ isSpecial b.toNat = false))

/-- A character by its name. -/
theorem readChar_name {b b' : Byte} {bs : List Byte} {n : Nat} (h : PlainBytes (b :: b' :: bs))
    (hx : b ≠ 120) (hf : charNames.find? (·.1 = b :: b' :: bs) = some (b :: b' :: bs, n))
    {rest : List Byte} (d : Delimited rest) :
    ∃ p, readChar { rest := b :: b' :: bs ++ rest } = some (.datum (.char n), p) ∧ Ends rest p := by
  obtain ⟨h1, h2, -⟩ := h b (by simp)
  obtain ⟨h1', h2', h3'⟩ := h b' (by simp)
  obtain ⟨p, ht, ends⟩ := takeToken_ascii (bs := b' :: bs) h1 h2 (fun x hx => h x (by simp at hx ⊢; tauto)) d
  refine ⟨p, ?_, ends⟩
  have hx' : b.toNat ≠ 120 := fun e => hx (UInt8.toNat_inj.1 e)
  rw [readChar, List.cons_append, take_ascii h1]
  simp only
  rw [List.cons_append, peek_ascii h1' h2']
  rw [List.cons_append] at ht
  simp only [h3', Bool.false_eq_true, if_false, hx', ht]
  simp [hf]

theorem reads_char {c : Nat} (h : c.isValidChar) : Reads (writeChar c) (.char c) := by
  intro rest d
  unfold writeChar
  rw [List.append_assoc, read_charHash]
  have name : ∀ (s : List Byte) (n : Nat), PlainBytes s → s.head? ≠ some 120 → 2 ≤ s.length →
      charNames.find? (·.1 = s) = some (s, n) → ∃ p,
      readChar { rest := s ++ rest } = some (.datum (.char n), p) ∧ Ends rest p := by
    intro s n h1 h2 h3 h4
    match s, h3 with
    | b :: b' :: bs, _ => exact readChar_name h1 (by simpa using h2) h4 d
  split
  · rename_i e; subst e; exact name _ _ (by decide) (by decide) (by decide) (by decide)
  split
  · rename_i e; subst e; exact name _ _ (by decide) (by decide) (by decide) (by decide)
  split
  · rename_i e; subst e; exact name _ _ (by decide) (by decide) (by decide) (by decide)
  split
  · rename_i e; subst e; exact name _ _ (by decide) (by decide) (by decide) (by decide)
  split
  · rename_i e; subst e; exact name _ _ (by decide) (by decide) (by decide) (by decide)
  split
  · rename_i e; subst e; exact name _ _ (by decide) (by decide) (by decide) (by decide)
  split
  · rename_i e; subst e; exact name _ _ (by decide) (by decide) (by decide) (by decide)
  split
  · rename_i e; subst e; exact name _ _ (by decide) (by decide) (by decide) (by decide)
  split
  · rename_i e; subst e; exact name _ _ (by decide) (by decide) (by decide) (by decide)
  · rename_i h0 _ _ _ _ _ _ _ _
    have e : (Char.ofNat c).toNat = c := by
      simp [Char.ofNat, h, Char.ofNatAux, Char.toNat]
    have hn : Char.ofNat c ≠ '\x00' := by
      intro h
      rw [h] at e
      exact h0 e.symm
    have := readChar_self (c := Char.ofNat c) d
    rw [e, ← utf8_char hn, e] at this
    exact this

/-! ### Symbols -/

/-- A byte of an encoding that is special is a character by itself. -/
theorem special_byte {c : Char} {b : Byte} (h : b ∈ String.utf8EncodeChar c) :
    (isSpecial b.toNat = true ↔ isSpecial c.toNat = true) ∧ b ≠ 0xFF := by
  by_cases hc : c.toNat ≤ 127
  · rw [utf8Encode_ascii hc, List.mem_singleton] at h
    have e : b.toNat = c.toNat := by
      rw [h]
      simp
      omega
    rw [e]
    refine ⟨Iff.rfl, ?_⟩
    rintro rfl
    have : UInt8.toNat 255 = 255 := rfl
    omega
  · have hb : 128 ≤ b.toNat ∧ b.toNat < 255 := by
      have e : c.val.toNat = c.toNat := rfl
      have := char_le c
      unfold String.utf8EncodeChar at h
      simp only [e] at h
      rw [if_neg (by omega)] at h
      split at h
      · simp only [List.mem_cons, List.not_mem_nil, or_false] at h
        rcases h with rfl | rfl <;> simp <;> omega
      · split at h
        · simp only [List.mem_cons, List.not_mem_nil, or_false] at h
          rcases h with rfl | rfl | rfl <;> simp <;> omega
        · simp only [List.mem_cons, List.not_mem_nil, or_false] at h
          rcases h with rfl | rfl | rfl | rfl <;> simp <;> omega
    refine ⟨⟨fun h => ?_, fun h => ?_⟩, ?_⟩
    · have := (isSpecial_ascii h).1
      omega
    · exact absurd (isSpecial_ascii h).1 hc
    · rintro rfl
      have : UInt8.toNat 255 = 255 := rfl
      omega

theorem any_special {cs : List Char} :
    (encode cs).any (fun b => isSpecial b.toNat || b = 0xFF) = cs.any fun c => isSpecial c.toNat := by
  induction cs with
  | nil => rfl
  | cons c cs ih =>
    simp only [encode, List.flatMap_cons, List.any_append, List.any_cons] at ih ⊢
    rw [ih]
    congr 1
    cases h : isSpecial c.toNat with
    | false =>
      rw [List.any_eq_false]
      intro b hb
      obtain ⟨h1, h2⟩ := special_byte hb
      rw [h] at h1
      simp only [Bool.false_eq_true, iff_false, Bool.not_eq_true] at h1
      simp [h1, h2]
    | true =>
      rw [List.any_eq_true]
      cases e : String.utf8EncodeChar c with
      | nil => exact (encode_ne_nil c e).elim
      | cons b bs =>
        refine ⟨b, by simp, ?_⟩
        have := (special_byte (c := c) (b := b) (by rw [e]; simp)).1.2 h
        simp [this]

theorem reads_symbol {high : Nat → Bool} {name : List Byte} (h : ReadableSymbol high name) :
    ∃ s, writeSymbol high name = some s ∧ Reads s (.symbol name) := by
  obtain ⟨cs, rfl, h0, h⟩ := h
  cases cs with
  | nil =>
    refine ⟨_, rfl, fun rest d => ⟨_, ?_, Ends.good rest⟩⟩
    have : ascii "||" ++ rest = 124 :: 124 :: rest := by simp [ascii]
    rw [this, read_bar (cs := [])]
    · rfl
    · rw [takeQuoted, take_ascii (by decide)]
      rfl
  | cons c cs =>
    have hne : encode (c :: cs) ≠ [] := by
      simp [encode_ne_nil c]
    unfold writeSymbol
    rw [if_neg hne, any_special]
    rcases h with ⟨⟨x, hx, hs⟩, hh⟩ | ⟨hs, hn, hd⟩
    · have : (c :: cs).any (fun c => isSpecial c.toNat) = true := List.any_eq_true.2 ⟨x, hx, hs⟩
      have hdec := decode_chars (c :: cs)
      refine ⟨[35] ++ writeString high ((c :: cs).map Char.toNat), ?_, fun rest d => ⟨_, ?_, Ends.good rest⟩⟩
      · rw [if_pos this, stringOf, hdec]
        rfl
      · have e : [35] ++ writeString high ((c :: cs).map Char.toNat) ++ rest =
            35 :: 34 :: (((c :: cs).map Char.toNat).flatMap (putChar high) ++ 34 :: rest) := by
          simp [writeString]
        have hq := takeQuoted_written (high := high) (cs := (c :: cs).map Char.toNat) (by
          intro n hn
          obtain ⟨x, hx, rfl⟩ := List.mem_map.1 hn
          have := char_le x
          exact ⟨by omega, hh x hx⟩) rest
        rw [e, read_hash, readHash.eq_def, take_ascii (by decide)]
        simp only [show UInt8.toNat 34 = 34 from rfl, hq]
        simp only [Nat.reduceEqDiff, if_false, if_true]
        have hu := utf8String_chars h0
        simp only [Option.bind_eq_bind, Option.bind_some, hu]
    · have : (c :: cs).any (fun c => isSpecial c.toNat) = false := by
        rw [List.any_eq_false]
        intro x hx
        simp [hs x hx]
      refine ⟨encode (c :: cs), by rw [this]; rfl, fun rest d => ?_⟩
      obtain ⟨p, ht, ends⟩ := takeToken_plain (c := c) (cs := cs) (h0 c (by simp))
        (fun x hx => ⟨h0 x (by simp [hx]), hs x (by simp [hx])⟩) d
      refine ⟨p, ?_, ends⟩
      have := read_token ⟨h0 c (by simp), hs c (by simp)⟩ ht
      rw [if_neg (show encode (c :: cs) ≠ [46] from hd), hn] at this
      rw [encode, List.flatMap_cons, List.append_assoc]
      exact this

/-! ### Lists, vectors and bytevectors -/

theorem elements_ofList (xs : List Datum) :
    Datum.elements (xs.foldr Datum.cons .null) = some xs := by
  induction xs with
  | nil => rfl
  | cons x xs ih => simp [Datum.elements, ih]

theorem bytes_ofBytes (bs : List Byte) :
    Datum.bytes (bs.map fun b => .num (.int b.toNat)) = .ok bs := by
  induction bs with
  | nil => rfl
  | cons b bs ih =>
    simp only [List.map_cons, Datum.bytes, ih]
    congr 2
    apply UInt8.toNat_inj.1
    have := b.toNat_lt
    have e : ((b.toNat : Int) % 256).toNat = b.toNat := by omega
    rw [e]
    simp

theorem read_bytes (bs : List Byte) (rest : List Byte) :
    read 40 { rest := writeBytes bs ++ 41 :: rest } =
      some (.datum ((bs.map fun b => Datum.num (.int b.toNat)).foldr .cons .null), { rest := rest }) := by
  induction bs with
  | nil => exact read_list_end rfl (read_close rest)
  | cons b bs ih =>
    cases bs with
    | nil =>
      obtain ⟨p, e, ends⟩ := reads_nat b.toNat _ (delimited_cons special_close rest)
      rw [ends.eq] at e
      exact read_list rfl e (read_list_end rfl (read_close rest))
    | cons b' bs =>
      have ew : writeBytes (b :: b' :: bs) = natDigits 10 b.toNat ++ [32] ++ writeBytes (b' :: bs) := by
        rw [writeBytes.eq_def]
      rw [ew, List.append_assoc, List.append_assoc]
      obtain ⟨p, e, ends⟩ := reads_nat b.toNat _
        (delimited_cons special_space (writeBytes (b' :: bs) ++ 41 :: rest))
      rw [ends.eq] at e
      exact read_list rfl e ((read_list_white white_space _).trans ih)

theorem reads_u8vector (bs : List Byte) (rest : List Byte) :
    read 0 { rest := ascii "#u8(" ++ writeBytes bs ++ [41] ++ rest } =
      some (.datum (.u8vector bs), { rest := rest }) := by
  have e : ascii "#u8(" ++ writeBytes bs ++ [41] ++ rest =
      35 :: 117 :: 56 :: 40 :: (writeBytes bs ++ 41 :: rest) := by simp [ascii]
  have hw : Port.takeWhile isDigitChar { rest := 56 :: 40 :: (writeBytes bs ++ 41 :: rest) } =
      some ([56], { rest := 40 :: (writeBytes bs ++ 41 :: rest) }) := by
    rw [Port.takeWhile, peek_ascii (by decide) (by decide)]
    simp only [Port.ready, Bool.not_false, if_true]
    rw [take_ascii (by decide)]
    have h2 : Port.takeWhile isDigitChar { rest := 40 :: (writeBytes bs ++ 41 :: rest) } =
        some ([], { rest := 40 :: (writeBytes bs ++ 41 :: rest) }) := by
      rw [Port.takeWhile, peek_ascii (by decide) (by decide)]
      rfl
    simp [h2, isDigitChar]
  rw [e, read_hash, readHash.eq_def, take_ascii (by decide)]
  simp only [show UInt8.toNat 117 = 117 from rfl, hw, read_open, read_bytes]
  simp [isDigitChar, digits, digitIn, digitValue, elements_ofList, bytes_ofBytes]

/-- The end of a dotted list. -/
theorem read_dotted {s : List Byte} {d : Datum} (rs : Reads s d) (rest : List Byte) :
    read 40 { rest := 32 :: (46 :: 32 :: (s ++ [41]) ++ rest) } =
      some (.datum d, { rest := rest }) := by
  obtain ⟨p, e, ends⟩ := rs _ (delimited_cons special_close rest)
  rw [ends.eq] at e
  obtain ⟨p', ends', e'⟩ := read_ascii_token (b := 46) (bs := []) (by decide)
    (delimited_cons special_space (s ++ 41 :: rest))
  rw [ends'.eq, if_pos rfl] at e'
  have eq : 32 :: (46 :: 32 :: (s ++ [41]) ++ rest) = 32 :: ([46] ++ 32 :: (s ++ 41 :: rest)) := by
    simp
  rw [eq, read_list_white white_space, read_list_dot rfl e', readTail, read_white white_space, e]
  have := takeUntil_ascii (stop := fun c => decide (c = 41)) (bs := []) (e := 41) (by decide)
    (by decide) (by simp) rest
  simp only [List.nil_append] at this
  simp [this]

mutual

/-- What `write` writes, `read` reads back. -/
theorem read_write (high : Nat → Bool) : ∀ d, Readable high d →
    ∃ s, write high d = some s ∧ Reads s d
  | .null, _ => by
    refine ⟨_, by rw [write], fun rest _ => ⟨_, ?_, Ends.good rest⟩⟩
    have : ascii "()" ++ rest = 40 :: 41 :: rest := by simp [ascii]
    rw [this, read_open]
    exact read_list_end rfl (read_close rest)
  | .bool true, _ => ⟨_, by rw [write]; rfl, reads_true⟩
  | .bool false, _ => ⟨_, by rw [write]; rfl, reads_false⟩
  | .num (.int n), _ => ⟨_, by rw [write]; rfl, reads_int n⟩
  | .num (.ratio n d), h => by
    replace h : 2 ≤ d ∧ Nat.Coprime n.natAbs d := by simpa [Readable, ReadableNum, ReadableReal] using h
    refine ⟨_, by rw [write]; rfl, ?_⟩
    rw [if_neg (by omega)]
    exact reads_ratio h.1 h.2
  | .num (.inexact _), h => by simp [Readable, ReadableNum, ReadableReal] at h
  | .num (.polar _ _), h => by simp [Readable, ReadableNum, ReadableReal] at h
  | .num (.rectangular x y), h => by
    rw [Readable, ReadableNum] at h
    rw [write]
    exact reads_rectangular h.1 h.2.1 h.2.2
  | .char c, h => ⟨_, by rw [write], reads_char (by simpa [Readable] using h)⟩
  | .string cs, h =>
    ⟨_, by rw [write], fun rest _ =>
      ⟨_, reads_string (by rw [Readable] at h; exact h) rest, Ends.good rest⟩⟩
  | .symbol name, h => by
    rw [Readable] at h
    obtain ⟨s, e, r⟩ := reads_symbol h
    exact ⟨s, by rw [write, e], r⟩
  | .cons a d, h => by
    rw [Readable] at h
    obtain ⟨s, es, rs⟩ := read_write high a h.1
    obtain ⟨b, t, et, hb, rt⟩ := read_tail high d h.2
    refine ⟨[40] ++ s ++ (b :: t), by rw [write, es, et]; rfl, fun rest _ => ⟨_, ?_, Ends.good rest⟩⟩
    obtain ⟨p, e, ends⟩ := rs _ (delimited_cons hb (t ++ rest))
    rw [ends.eq] at e
    have : [40] ++ s ++ (b :: t) ++ rest = 40 :: (s ++ b :: (t ++ rest)) := by simp
    rw [this, read_open]
    exact read_list rfl e (rt rest)
  | .vector xs, h => by
    rw [Readable] at h
    obtain ⟨s, es, rs⟩ := read_elements high xs h
    refine ⟨ascii "#(" ++ s ++ [41], by rw [write, es]; rfl, fun rest _ => ⟨_, ?_, Ends.good rest⟩⟩
    have e : ascii "#(" ++ s ++ [41] ++ rest = 35 :: 40 :: (s ++ 41 :: rest) := by simp [ascii]
    rw [e, read_hash, readHash.eq_def, take_ascii (by decide)]
    simp [isDigitChar, rs rest, elements_ofList]
  | .u8vector bs, _ => ⟨_, by rw [write], fun rest _ => ⟨_, reads_u8vector bs rest, Ends.good rest⟩⟩
  | .eof, h => by simp [Readable] at h
termination_by d => (sizeOf d, 0)

/-- The rest of a list. -/
theorem read_tail (high : Nat → Bool) : ∀ d, Readable high d →
    ∃ b t, writeTail high d = some (b :: t) ∧ isSpecial b.toNat = true ∧
      ∀ rest, read 40 { rest := b :: (t ++ rest) } = some (.datum d, { rest := rest })
  | .null, _ => ⟨41, [], by rw [writeTail], special_close, fun rest => read_list_end rfl (read_close rest)⟩
  | .cons a d, h => by
    rw [Readable] at h
    obtain ⟨s, es, rs⟩ := read_write high a h.1
    obtain ⟨b, t, et, hb, rt⟩ := read_tail high d h.2
    refine ⟨32, s ++ (b :: t), by rw [writeTail, es, et]; simp, special_space, fun rest => ?_⟩
    obtain ⟨p, e, ends⟩ := rs _ (delimited_cons hb (t ++ rest))
    rw [ends.eq] at e
    rw [read_list_white white_space, List.append_assoc]
    exact read_list rfl e (rt rest)
  | .bool x, h => by
    obtain ⟨s, es, rs⟩ := read_write high (.bool x) h
    exact ⟨32, 46 :: 32 :: (s ++ [41]), by simp [writeTail, es, ascii], special_space,
      read_dotted rs⟩
  | .num x, h => by
    obtain ⟨s, es, rs⟩ := read_write high (.num x) h
    exact ⟨32, 46 :: 32 :: (s ++ [41]), by simp [writeTail, es, ascii], special_space,
      read_dotted rs⟩
  | .char x, h => by
    obtain ⟨s, es, rs⟩ := read_write high (.char x) h
    exact ⟨32, 46 :: 32 :: (s ++ [41]), by simp [writeTail, es, ascii], special_space,
      read_dotted rs⟩
  | .string x, h => by
    obtain ⟨s, es, rs⟩ := read_write high (.string x) h
    exact ⟨32, 46 :: 32 :: (s ++ [41]), by simp [writeTail, es, ascii], special_space,
      read_dotted rs⟩
  | .symbol x, h => by
    obtain ⟨s, es, rs⟩ := read_write high (.symbol x) h
    exact ⟨32, 46 :: 32 :: (s ++ [41]), by simp [writeTail, es, ascii], special_space,
      read_dotted rs⟩
  | .vector x, h => by
    obtain ⟨s, es, rs⟩ := read_write high (.vector x) h
    exact ⟨32, 46 :: 32 :: (s ++ [41]), by simp [writeTail, es, ascii], special_space,
      read_dotted rs⟩
  | .u8vector x, h => by
    obtain ⟨s, es, rs⟩ := read_write high (.u8vector x) h
    exact ⟨32, 46 :: 32 :: (s ++ [41]), by simp [writeTail, es, ascii], special_space,
      read_dotted rs⟩
  | .eof, h => by
    obtain ⟨s, es, rs⟩ := read_write high (.eof) h
    exact ⟨32, 46 :: 32 :: (s ++ [41]), by simp [writeTail, es, ascii], special_space,
      read_dotted rs⟩
termination_by d => (sizeOf d, 1)

/-- The elements of a vector. -/
theorem read_elements (high : Nat → Bool) : ∀ xs : List Datum, (∀ x ∈ xs, Readable high x) →
    ∃ s, writeElements high xs = some s ∧ ∀ rest, read 40 { rest := s ++ 41 :: rest } =
      some (.datum (xs.foldr Datum.cons .null), { rest := rest })
  | [], _ => ⟨[], by rw [writeElements], fun rest => read_list_end rfl (read_close rest)⟩
  | [x], h => by
    obtain ⟨s, es, rs⟩ := read_write high x (h x (by simp))
    refine ⟨s, by rw [writeElements, es], fun rest => ?_⟩
    obtain ⟨p, e, ends⟩ := rs _ (delimited_cons special_close rest)
    rw [ends.eq] at e
    exact read_list rfl e (read_list_end rfl (read_close rest))
  | x :: y :: xs, h => by
    obtain ⟨s, es, rs⟩ := read_write high x (h x (by simp))
    obtain ⟨t, et, rt⟩ := read_elements high (y :: xs) fun z hz => h z (by simp at hz ⊢; tauto)
    refine ⟨s ++ [32] ++ t, by rw [writeElements, es, et]; rfl; simp, fun rest => ?_⟩
    obtain ⟨p, e, ends⟩ := rs _ (delimited_cons special_space (t ++ 41 :: rest))
    rw [ends.eq] at e
    have : s ++ [32] ++ t ++ 41 :: rest = s ++ 32 :: (t ++ 41 :: rest) := by simp
    rw [this]
    exact read_list rfl e ((read_list_white white_space _).trans (rt rest))
termination_by xs => (sizeOf xs, 0)

end

end Meevax.Text
