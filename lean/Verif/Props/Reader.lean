import Verif.Lemmas.Layout
import Mathlib.Data.Nat.Digits.Defs

/-! C18-C23, C60, C61: `write`, `read`, `number->string` and `string->number`. -/

namespace Meevax.Text

/-! ### C22: compound data -/

/-- **C22, readable data**: `write` succeeds, and `read` on what it wrote, followed by the end of the
input or a delimiter, gives the datum back and leaves exactly what follows. -/
theorem C22_round_trip_partial (high : Nat → Bool) {d : Datum} (h : Readable high d) :
    ∃ s, write high d = some s ∧ ∀ rest, Delimited rest →
      ∃ p, read 0 { rest := s ++ rest } = some (.datum d, p) ∧ Ends rest p :=
  read_write high d h

/-- Any number of data, each followed by a space, read back one by one. -/
theorem C22_sequence_partial (high : Nat → Bool) {ds : List Datum} (h : ∀ d ∈ ds, Readable high d) :
    ∃ s, (ds.mapM (write high)).map (fun ss => ss.flatMap (· ++ [32])) = some s ∧ ∀ rest,
      (ds.foldl (fun (o : Option (List Datum × Port)) _ => do
        let (xs, p) ← o
        match ← read 0 p with
        | (.datum x, p) => some (xs ++ [x], p)
        | _ => none) (some ([], { rest := s ++ rest }))).map (fun (xs, p) => (xs, p.rest.dropWhile (· = 32))) =
      some (ds, rest.dropWhile (· = 32)) := by
  have key : ∀ (ds : List Datum), (∀ d ∈ ds, Readable high d) → ∃ ss, ds.mapM (write high) = some ss ∧
      ∀ rest (xs : List Datum) (pre : List Byte), pre = [] ∨ pre = [32] →
      (ds.foldl (fun (o : Option (List Datum × Port)) _ => do
        let (xs, p) ← o
        match ← read 0 p with
        | (.datum x, p) => some (xs ++ [x], p)
        | _ => none) (some (xs, { rest := pre ++ ss.flatMap (· ++ [32]) ++ rest }))).map
          (fun (xs, p) => (xs, p.rest.dropWhile (· = 32))) =
      some (xs ++ ds, rest.dropWhile (· = 32)) := by
    intro ds
    induction ds with
    | nil =>
      intro _
      refine ⟨[], rfl, ?_⟩
      rintro rest xs pre (rfl | rfl) <;> simp
    | cons d ds ih =>
      intro h
      obtain ⟨s, es, rs⟩ := read_write high d (h d (by simp))
      obtain ⟨ss, ess, hss⟩ := ih fun d hd => h d (by simp [hd])
      refine ⟨s :: ss, by simp [es, ess], ?_⟩
      intro rest xs pre hpre
      have e1 : read 0 { rest := pre ++ (s :: ss).flatMap (· ++ [32]) ++ rest } =
          some (.datum d, { rest := [32] ++ ss.flatMap (· ++ [32]) ++ rest }) := by
        have e2 : ∀ r, read 0 { rest := pre ++ r } = read 0 { rest := r } := by
          intro r
          rcases hpre with rfl | rfl
          · rfl
          · exact read_white white_space r
        have e3 : pre ++ (s :: ss).flatMap (· ++ [32]) ++ rest =
            pre ++ (s ++ 32 :: (ss.flatMap (· ++ [32]) ++ rest)) := by simp
        rw [e3, e2]
        obtain ⟨p, e, ends⟩ := rs _ (delimited_cons special_space (ss.flatMap (· ++ [32]) ++ rest))
        rw [ends.eq] at e
        rw [e]
        simp
      rw [List.foldl_cons]
      simp only [Option.bind_eq_bind, Option.bind_some, e1]
      have := hss rest (xs ++ [d]) [32] (Or.inr rfl)
      simp only [Option.bind_eq_bind] at this
      rw [this]
      simp
  obtain ⟨ss, e, h'⟩ := key ds h
  refine ⟨_, by rw [e]; rfl, fun rest => ?_⟩
  have := h' rest [] [] (Or.inl rfl)
  simpa using this

/-- A dotted list with a vector, a string, a character, a symbol and numbers is readable. -/
def sample : Datum :=
  .cons (.symbol (ascii "abc")) (.cons (.vector [.num (.int (-7)), .string [0x22, 0x3042], .null])
    (.cons (.num (.rectangular (.ratio 1 2) (.int (-3)))) (.cons (.char 0x20) (.num (.ratio 2 3)))))

theorem readable_abc (high : Nat → Bool) : ReadableSymbol high (ascii "abc") :=
  ⟨['a', 'b', 'c'], by decide, by decide, Or.inr ⟨by decide,
    makeNumber_name (by decide) (by decide) (by decide), by decide⟩⟩

example : Readable (fun _ => false) sample := by
  simp [sample, Readable, ReadableNum, ReadableReal, NegativeReal, Nat.isValidChar, readable_abc]
  decide

example : write (fun _ => false) sample = some (ascii "(abc #(-7 \"\\\"\\x3042;\" ()) 1/2-3i #\\space . 2/3)") := by
  simp [sample, write, writeTail, writeElements, writeSymbol, writeNum, isExactZero, explicitlySigned, writeString, writeChar, putChar,
    isPrint, intDigits, natDigits, natDigits.digitChar, upperHex, ascii, isSpecial]

/-! ### C18: strings -/

/-- **C18**: reading what `write` prints for a string gives the same characters and consumes exactly
the printed text, if the C library's `isprint` is false above 255 (where its behaviour is
undefined). -/
theorem C18_string_partial {high : Nat → Bool} {cs : List Nat}
    (h : ∀ c ∈ cs, c < 2 ^ 31 ∧ (255 < c → high c = false)) (rest : List Byte) :
    read 0 { rest := writeString high cs ++ rest } = some (.datum (.string cs), { rest := rest }) :=
  reads_string h rest

/-- Quotes, backslashes, bars, control characters and other scripts meet the hypothesis. -/
example : ∀ c ∈ [0x22, 0x5C, 0x7C, 0x0A, 0, 0x3042, 0x1F600],
    c < 2 ^ 31 ∧ (255 < c → (fun _ => false : Nat → Bool) c = false) := by decide

/-- **C18 depends on undefined behaviour above 255**: if `isprint` answers true there, a character is
cut to its low byte, and another string is read back. -/
theorem C18_isprint_fails : writeString (fun _ => true) [0x3042] = writeString (fun _ => true) [0x42] := by
  decide

/-! ### C19: characters -/

/-- **C19**: reading what `write` prints for a character gives the same character, for every Unicode
scalar value, if a delimiter or the end of the input follows. -/
theorem C19_char {c : Nat} (h : c.isValidChar) {rest : List Byte} (d : Delimited rest) :
    ∃ p, read 0 { rest := writeChar c ++ rest } = some (.datum (.char c), p) ∧ Ends rest p :=
  reads_char h rest d

/-- A parenthesis, which is itself a delimiter, the letter `x`, NUL and U+1F600 are valid. -/
example : ∀ c ∈ [0x28, 0x78, 0, 0x1F600], Nat.isValidChar c := by
  simp [Nat.isValidChar]

/-! ### C20: symbols -/

/-- **C20, readable symbols**: reading what `write` prints for a symbol gives the same symbol, unless
its name reads as a number or is a dot. -/
theorem C20_symbol_partial {high : Nat → Bool} {name : List Byte} (h : ReadableSymbol high name) :
    ∃ s, writeSymbol high name = some s ∧ ∀ rest, Delimited rest →
      ∃ p, read 0 { rest := s ++ rest } = some (.datum (.symbol name), p) ∧ Ends rest p :=
  reads_symbol h

/-- Names without digits, without `@` and not ending in `i` meet the hypothesis. -/
theorem C20_names {high : Nat → Bool} {cs : List Char} (h0 : ∀ c ∈ cs, c ≠ '\x00')
    (hs : ∀ c ∈ cs, isSpecial c.toNat = false) (hd : ∀ b ∈ encode cs, isDigitByte b = false)
    (ha : ∀ b ∈ encode cs, b ≠ 64) (hi : (encode cs).getLast? ≠ some 105)
    (hdot : encode cs ≠ ascii ".") : ReadableSymbol high (encode cs) :=
  ⟨cs, rfl, h0, Or.inr ⟨hs, makeNumber_name hd ha hi, hdot⟩⟩

/-- The empty name, a name with a space and a bar, and a plain name. -/
example : ReadableSymbol (fun _ => false) [] ∧
    ReadableSymbol (fun _ => false) (encode ['a', ' ', '|']) ∧
    ReadableSymbol (fun _ => false) (encode ['l', 'i', 's', 't', '-', '>', 'λ']) := by
  refine ⟨⟨[], rfl, by decide, Or.inr ⟨by decide, by decide, by decide⟩⟩,
    ⟨_, rfl, by decide, Or.inl ⟨⟨' ', by decide, by decide⟩, by decide⟩⟩,
    C20_names (by decide) (by decide) (by decide) (by decide) (by decide) (by decide)⟩

/-- **C20 is false for names that read as numbers**: the symbol named by the digits of `n` is written
as the digits and read as the number `n`. -/
theorem C20_number_fails (high : Nat → Bool) (n : Int) :
    writeSymbol high (intDigits 10 n) = some (intDigits 10 n) ∧ ∀ rest, Delimited rest →
      ∃ p, read 0 { rest := intDigits 10 n ++ rest } = some (.datum (.num (.int n)), p) ∧
        Ends rest p := by
  refine ⟨?_, reads_int n⟩
  unfold writeSymbol
  rw [if_neg (intDigits_ne n).1, if_neg]
  rw [Bool.not_eq_true, List.any_eq_false]
  intro b hb
  obtain ⟨h1, -, h3⟩ := intDigits_plain n b hb
  have : b ≠ 255 := by
    rintro rfl
    exact absurd h1 (by decide)
  simp [h3, this]

/-- **C20 is false for the symbol named by a dot**: it is written as a dot, on which the reader raises
its end-of-dotted-list exception. -/
theorem C20_dot_fails (high : Nat → Bool) : writeSymbol high (ascii ".") = some (ascii ".") ∧
    ∃ p, read 0 { rest := ascii "." } = some (.dot, p) := by
  refine ⟨rfl, ?_⟩
  obtain ⟨p, -, e⟩ := read_ascii_token (b := 46) (bs := []) (by decide) (rest := []) (Or.inl rfl)
  exact ⟨p, e⟩

/-! ### C21: number->string and string->number -/

theorem natDigits_length {radix : Nat} (hr : 2 ≤ radix) : ∀ (m n : Nat), 1 ≤ m → n < radix ^ m →
    (natDigits radix n).length ≤ m := by
  intro m
  induction m with
  | zero => intro n h; omega
  | succ m ih =>
    intro n _ hn
    by_cases h : n < radix
    · rw [natDigits_lt hr h]
      simp
    · rw [natDigits_ge hr (by omega)]
      have hm : 1 ≤ m := by
        rcases Nat.eq_zero_or_pos m with rfl | h'
        · simp at hn
          omega
        · exact h'
      have := ih (n / radix) hm (by
        rw [Nat.div_lt_iff_lt_mul (by omega)]
        rwa [Nat.pow_succ] at hn)
      simp
      omega

/-- **C21, exact integers**: in every radix from 2 to 36, `string->number` of `number->string` is the
same number, except for the smallest fixnum in radix 2. -/
theorem C21_integer_partial {radix : Nat} (hr : 2 ≤ radix) (hr' : radix ≤ 36) {n : Int}
    (h : ¬ (radix = 2 ∧ n = -2 ^ 31)) :
    ∃ s, numberToString (.int n) radix = some s ∧ makeNumber s radix = .number (.int n) := by
  refine ⟨intDigits radix n, ?_, makeNumber_intDigits hr hr' n⟩
  rw [numberToString, if_neg]
  rintro ⟨h1, h2, h3⟩
  have h1' : -2147483648 ≤ n := h1
  have h2' : n < 2147483648 := h2
  have hlen : (intDigits radix n).length ≤ (natDigits radix n.natAbs).length + 1 := by
    unfold intDigits
    split <;> simp
  by_cases hr2 : radix = 2
  · subst hr2
    have hn : n ≠ -2147483648 := fun e => h ⟨rfl, e⟩
    have := natDigits_length (radix := 2) (by omega) 31 n.natAbs (by omega) (by
      have : (2 : Nat) ^ 31 = 2147483648 := by norm_num
      omega)
    omega
  · have := natDigits_length hr 31 n.natAbs (by omega) (by
      have h3 : (3 : Nat) ^ 31 ≤ radix ^ 31 := Nat.pow_le_pow_left (by omega) 31
      have : (3 : Nat) ^ 31 = 617673396283947 := by norm_num
      omega)
    omega

/-- The hypotheses are met by a bignum in radix 36. -/
example : ∃ s, numberToString (.int (-2 ^ 100)) 36 = some s ∧ makeNumber s 36 = .number (.int (-2 ^ 100)) :=
  C21_integer_partial (by omega) (by omega) (by simp)

/-- **C21 fails for the smallest fixnum in radix 2**: its 33 characters fill the buffer, and the string
has no end. -/
theorem C21_smallest_fails : numberToString (.int (-2 ^ 31)) 2 = none := by
  have e : ∀ m, natDigits 2 (2 ^ m) = 49 :: List.replicate m 48 := by
    intro m
    induction m with
    | zero => rw [natDigits_lt (by omega) (by norm_num)]; decide
    | succ m ih =>
      have h2 : 2 ≤ 2 ^ (m + 1) := by
        have := Nat.one_le_two_pow (n := m)
        omega
      rw [natDigits_ge (by omega) h2, Nat.pow_succ, Nat.mul_div_cancel _ (by omega), ih,
        Nat.mul_mod_left, List.replicate_succ']
      rfl
  have e' : intDigits 2 (-2 ^ 31) = 45 :: 49 :: List.replicate 31 48 := by
    have : (-2 ^ 31 : Int).natAbs = 2 ^ 31 := by norm_num
    rw [intDigits, if_pos (by norm_num), this, e]
  rw [numberToString, if_pos]
  rw [e']
  refine ⟨le_refl _, by norm_num, by simp⟩

/-- **C21 is false for ratios**: every ratio, in every radix, becomes the text `TODO`, which is not a
number in radix 10. -/
theorem C21_ratio_fails (n : Int) (d radix : Nat) :
    numberToString (.ratio n d) radix = some (ascii "TODO") ∧
      makeNumber (ascii "TODO") 10 = .invalid :=
  ⟨rfl, makeNumber_name (by decide) (by decide) (by decide)⟩

/-- **C21, ratios through `write` and `read`**: a ratio in lowest terms is read back, in every radix the
digits are written in. -/
theorem C21_ratio_literal {radix : Nat} (hr : 2 ≤ radix) (hr' : radix ≤ 36) {n : Int} {d : Nat}
    (hd : d ≠ 0) (hc : Nat.Coprime n.natAbs d) :
    makeNumber (intDigits radix n ++ 47 :: natDigits radix d) radix = .number (.ratio n d) :=
  makeNumber_ratio hr hr' hd hc

/-! ### C23: white space and comments -/

/-- **C23, layouts**: any text of a datum with white space, line comments, nested block comments and
datum comments between its tokens reads as that datum and consumes exactly that text. Excluded by
the grammar `Layout`: comments between the last datum of a dotted list and its parenthesis, and
`,` followed by space. -/
theorem C23_layout_partial {high : Nat → Bool} {d : Datum} {s : List Byte}
    (h : Layout high .datum d s) {rest : List Byte} (hr : Delimited rest) :
    ∃ p, read 0 { rest := s ++ rest } = some (.datum d, p) ∧ Ends rest p :=
  layout_ok h rest hr

/-- **C23, in front of a datum**: space changes nothing, whatever follows (the datum may be a list that
is still open, a closing parenthesis or the end of the input). -/
theorem C23_space {high : Nat → Bool} {s : List Byte} (h : Layout high (.blank false) .null s)
    (rest : List Byte) : read 0 { rest := s ++ rest } = read 0 { rest := rest } :=
  layout_ok h rest

/-- `( #| a #| b |# |# abc #;() ; c⏎ . abc )`, a text with every kind of comment. -/
example : Layout (fun _ => false) .datum
    (.cons (.symbol (ascii "abc")) (.symbol (ascii "abc")))
    (40 :: (ascii " #| a #| b |# |# " ++ (ascii "abc" ++
      (ascii " #;() ; c\n " ++ 46 :: (ascii " " ++ (ascii "abc" ++ (ascii " " ++ [41]))))))) := by
  have abc : Layout (fun _ => false) .datum (.symbol (ascii "abc")) (ascii "abc") :=
    .written (by rw [Readable]; exact readable_abc _) (by rw [write]; decide)
  have sp : Layout (fun _ => false) (.blank false) .null (ascii " ") := .white (by decide) .nil
  have nested : Nested [' ', 'a', ' ', '#', '|', ' ', 'b', ' ', '|', '#', ' '] :=
    .other (by decide) (by decide) (.other (by decide) (by decide) (.other (by decide) (by decide)
      (.comment (body := [' ', 'b', ' ']) (cs := [' '])
        (.other (by decide) (by decide) (.other (by decide) (by decide)
          (.other (by decide) (by decide) .nil)))
        (.other (by decide) (by decide) .nil))))
  have b1 : Layout (fun _ => false) (.blank false) .null (ascii " #| a #| b |# |# ") := by
    have := Layout.white (high := fun _ => false) (b := 32) (by decide) (.block nested sp)
    have e : ascii " #| a #| b |# |# " = 32 :: 35 :: 124 ::
        (encode [' ', 'a', ' ', '#', '|', ' ', 'b', ' ', '|', '#', ' '] ++ 124 :: 35 :: ascii " ") := by
      decide
    rw [e]
    exact this
  have b2 : Layout (fun _ => false) (.blank false) .null (ascii " #;() ; c\n ") := by
    have hl := Layout.white (high := fun _ => false) (b := 32) (by decide)
      (.line (text := [' ', 'c']) (by decide) sp)
    have := Layout.white (high := fun _ => false) (b := 32) (by decide)
      (.comment .nil (.null .nil) hl (by decide) nofun)
    have e : ascii " #;() ; c\n " = 32 :: 35 :: 59 ::
        ([] ++ (40 :: ([] ++ [41]) ++ 32 :: 59 :: (encode [' ', 'c'] ++ 10 :: ascii " "))) := by
      decide
    rw [e]
    exact this
  refine .list b1 abc (.tailDot b2 sp abc ?_ nofun ?_) ?_ nofun
  · exact ⟨32, ascii "abc", by decide, by decide⟩
  · decide
  · exact ⟨32, _, rfl, by decide⟩

/-- **C23 is false after the last datum of a dotted list**: everything up to the first parenthesis is
skipped, also one in a comment. The list ends inside the comment, and the rest of the comment is
read as data. -/
theorem C23_dotted_fails (high : Nat → Bool) (rest : List Byte) :
    read 0 { rest := ascii "(abc . abc ;)" ++ rest } =
      some (.datum (.cons (.symbol (ascii "abc")) (.symbol (ascii "abc"))), { rest := rest }) := by
  obtain ⟨s, es, rs⟩ := reads_symbol (readable_abc high)
  have : s = ascii "abc" := by
    have : writeSymbol high (ascii "abc") = some (ascii "abc") := by
      unfold writeSymbol
      rw [if_neg (by decide), if_neg (by decide)]
    rw [this] at es
    exact (Option.some.inj es).symm
  subst this
  have e : ascii "(abc . abc ;)" ++ rest =
      40 :: (ascii "abc" ++ 32 :: ([46] ++ 32 :: (ascii "abc" ++ 32 :: ([59] ++ 41 :: rest)))) := by
    simp [ascii]
  have h1 := Reads.at rs (t := 32 :: ([46] ++ 32 :: (ascii "abc" ++ 32 :: ([59] ++ 41 :: rest))))
    ⟨_, _, rfl, special_space⟩
  have h2 := Reads.at rs (t := 32 :: ([59] ++ 41 :: rest)) ⟨_, _, rfl, special_space⟩
  obtain ⟨p', ends', e'⟩ := read_ascii_token (b := 46) (bs := []) (by decide)
    (delimited_cons special_space (ascii "abc" ++ 32 :: ([59] ++ 41 :: rest)))
  rw [ends'.eq, if_pos rfl] at e'
  have h3 := takeUntil_ascii (stop := fun c => decide (c = 41)) (bs := [32, 59]) (e := 41) (by decide)
    (by decide) (by decide) rest
  rw [e, read_open]
  refine read_list rfl h1 ?_
  rw [read_list_white white_space, read_list_dot rfl e', readTail, read_white white_space, h2]
  have h4 : 32 :: ([59] ++ 41 :: rest) = [32, 59] ++ 41 :: rest := rfl
  rw [h4]
  simp only [Option.bind_eq_bind, Option.bind_some, h3]

/-- **C23 is false after a comma**: white space after `,` makes the reader loop forever. -/
theorem C23_comma_fails {b : Byte} (hb : isWhite b.toNat = true) (rest : List Byte) :
    read 0 { rest := 44 :: b :: rest } = none := by
  have h128 : b.toNat ≤ 127 := by
    simp [isWhite] at hb
    omega
  have h0 : b.toNat ≠ 0 := by
    rintro e
    rw [e] at hb
    exact absurd hb (by decide)
  have loop : ∀ r, read b.toNat { rest := rest } ≠ some r := by
    have key := (read.mutual_partial_correctness
      (fun c p _ => ¬ (c = b.toNat ∧ p = { rest := rest })) (fun _ _ => True) (fun _ _ => True)
      (by
        rintro rd _ _ ih - - c p r e ⟨rfl, rfl⟩
        simp only [Port.ready, Bool.not_false, if_true, ne_eq, h0, not_false_eq_true, hb] at e
        exact ih _ _ _ e ⟨rfl, rfl⟩)
      (by intros; trivial) (by intros; trivial)).1
    intro r e
    exact key _ _ _ e ⟨rfl, rfl⟩
  have none' : read b.toNat { rest := rest } = none := by
    cases e : read b.toNat { rest := rest } with
    | none => rfl
    | some r => exact (loop r e).elim
  have hne : b.toNat ≠ 64 := by
    intro e
    rw [e] at hb
    exact absurd hb (by decide)
  rw [read.eq_def]
  have h44 : UInt8.toNat 44 = 44 := rfl
  simp [Port.ready, take_ascii (b := 44) (by decide), take_ascii h128, h44, isWhite, hne, none']

/-! ### C60: the end of the input -/

/-- **C60, after white space**: `read` on remaining white space, also none, gives the end-of-file
object. -/
theorem C60_eof_partial {s : List Byte} (h : ∀ b ∈ s, isWhite b.toNat = true) :
    ∃ p, read 0 { rest := s } = some (.datum .eof, p) := by
  induction s with
  | nil =>
    refine ⟨{ rest := [], eof := true, fail := true }, ?_⟩
    rw [read.eq_def]
    simp [Port.ready, take_end]
  | cons b s ih =>
    rw [read_white (h b (by simp))]
    exact ih fun b hb => h b (by simp [hb])

example : ∃ p, read 0 { rest := ascii " \n" } = some (.datum .eof, p) := C60_eof_partial (by decide)

/-- After a token that ends with the input the stream is in a failed state that is not the end of file. -/
theorem read_one : read 0 { rest := ascii "1" } =
    some (.datum (.num (.int 1)), { rest := [], eof := false, fail := true }) := by
  have e : ascii "1" = String.utf8EncodeChar '1' ++ [] := by decide
  have ht : takeToken ('1' : Char).toNat { rest := [] } =
      some (.ok [49], { rest := [], eof := false, fail := true }) := by
    rw [takeToken, takeTokenLoop, peek_end]
    rfl
  rw [e, read_token (by exact ⟨by decide, by decide⟩) ht]
  have := makeNumber_intDigits (radix := 10) (by omega) (by omega) 1
  have e1 : intDigits 10 1 = [49] := by
    rw [intDigits, if_neg (by omega)]
    exact natDigits_lt (by omega) (by decide)
  rw [e1] at this
  rw [this]
  rfl

/-- **C60 is false after a token that ends with the input**: the second `read` on the text `1` raises an
error instead of giving the end-of-file object. -/
theorem C60_token_fails : ∃ p, read 0 { rest := ascii "1" } = some (.datum (.num (.int 1)), p) ∧
    read 0 p = some (.error, p) := by
  refine ⟨{ rest := [], eof := false, fail := true }, read_one, ?_⟩
  rw [read.eq_def]
  rfl

/-! ### C61: number syntax -/

/-- The characters that stand for a digit (R7RS 7.1.1; letters in either case). -/
def DigitChar (v : Nat) (b : Byte) : Prop :=
  v < 10 ∧ b.toNat = 48 + v ∨ 10 ≤ v ∧ (b.toNat = 87 + v ∨ b.toNat = 55 + v)

theorem digitIn_of {radix v : Nat} {b : Byte} (hr : radix ≤ 36) (hv : v < radix) (h : DigitChar v b) :
    digitIn radix b = some v ∧ b ≠ 45 ∧ b ≠ 43 ∧ isSpaceByte b = false := by
  have e : ∀ (n : Byte), b.toNat ≠ n.toNat → b ≠ n := by
    rintro n h rfl
    exact h rfl
  refine ⟨?_, e _ ?_, e _ ?_, ?_⟩
  · unfold digitIn digitValue
    rcases h with ⟨h1, h2⟩ | ⟨h1, h2 | h2⟩
    · simp only [h2]
      rw [if_pos (by omega)]
      simp only [Nat.add_sub_cancel_left, hv, if_true]
    · simp only [h2]
      rw [if_neg (by omega), if_pos (by omega)]
      simp only [Nat.add_sub_cancel_left, hv, if_true]
    · simp only [h2]
      rw [if_neg (by omega), if_neg (by omega), if_pos (by omega)]
      simp only [Nat.add_sub_cancel_left, hv, if_true]
  · have : UInt8.toNat 45 = 45 := rfl
    unfold DigitChar at h
    omega
  · have : UInt8.toNat 43 = 43 := rfl
    unfold DigitChar at h
    omega
  · have h48 : 48 ≤ b.toNat := by
      unfold DigitChar at h
      omega
    unfold isSpaceByte
    have h13 : ¬ b ≤ 13 := by
      rw [UInt8.le_iff_toNat_le]
      have : UInt8.toNat 13 = 13 := rfl
      omega
    have h32 : b ≠ 32 := by
      apply e
      have : UInt8.toNat 32 = 32 := rfl
      omega
    simp [h13, h32]

theorem digits_value {radix : Nat} (hr : radix ≤ 36) {vs : List Nat} {bs : List Byte}
    (h : List.Forall₂ (fun v b => v < radix ∧ DigitChar v b) vs bs) : ∀ acc,
    digits radix acc bs = (vs.foldl (fun a v => a * radix + v) acc, []) := by
  induction h with
  | nil => intro acc; rfl
  | cons h _ ih =>
    intro acc
    rw [digits, (digitIn_of hr h.1 h.2).1]
    exact ih _

theorem foldl_ofDigits (radix : Nat) (vs : List Nat) :
    vs.foldl (fun a v => a * radix + v) 0 = Nat.ofDigits radix vs.reverse := by
  have : ∀ (ws : List Nat), ws.foldr (fun v a => a * radix + v) 0 = Nat.ofDigits radix ws := by
    intro ws
    induction ws with
    | nil => rfl
    | cons w ws ih =>
      rw [List.foldr_cons, ih, Nat.ofDigits_cons]
      show _ = w + _
      ring
  rw [← this, List.foldr_reverse]

/-- **C61, integer literals**: any non-empty sequence of digits of the radix, with leading zeros and
letters in either case, with or without a minus sign, is read as the exact integer it denotes, of
any size. -/
theorem C61_integer_partial {radix : Nat} (hr : radix ≤ 36) {vs : List Nat} {bs : List Byte}
    (h : List.Forall₂ (fun v b => v < radix ∧ DigitChar v b) vs bs) (hne : bs ≠ []) :
    makeNumber bs radix = .number (.int ((Nat.ofDigits radix vs.reverse : Nat) : Int)) ∧
      makeNumber (45 :: bs) radix = .number (.int (-(Nat.ofDigits radix vs.reverse : Nat))) := by
  have hd := digits_value hr h 0
  rw [foldl_ofDigits] at hd
  have hf : bs.filter (fun b => !isSpaceByte b) = bs := by
    rw [List.filter_eq_self]
    intro b hb
    have : ∃ v, v < radix ∧ DigitChar v b := by
      clear hd hne
      induction h with
      | nil => cases hb
      | cons h _ ih =>
        rcases List.mem_cons.1 hb with rfl | hb
        · exact ⟨_, h⟩
        · exact ih hb
    obtain ⟨v, hv, hb⟩ := this
    simp [(digitIn_of hr hv hb).2.2.2]
  generalize Nat.ofDigits radix vs.reverse = n at hd
  cases h with
  | nil => exact (hne rfl).elim
  | @cons v b vs bs h _ =>
    obtain ⟨h1, h2, h3, h4⟩ := digitIn_of hr h.1 h.2
    have s45 : isSpaceByte 45 = false := by decide
    constructor
    · have e : makeInteger (b :: bs) radix = some (n : Int) := by
        have ez : mpzSetStr (b :: bs) radix = some (n : Int) := by
          simp only [mpzSetStr, List.dropWhile_cons, h4, Bool.false_eq_true, if_false, minus, h2, h1, hf, hd]
        rw [makeInteger]
        simp only [fromChars, minus, h2, if_false, h1, hd, dropPlus, h3, ez, Bool.false_eq_true]
        by_cases hb : -2 ^ 63 ≤ (n : Int) ∧ (n : Int) < 2 ^ 63
        · rw [if_pos (by exact hb)]
          simp
        · rw [if_neg (by exact hb)]
      rw [makeNumber, makeReal, e]
    · have e : makeInteger (45 :: b :: bs) radix = some (-(n : Int)) := by
        have ez : mpzSetStr (45 :: b :: bs) radix = some (-(n : Int)) := by
          simp only [mpzSetStr, List.dropWhile_cons, s45, Bool.false_eq_true, if_false, minus, if_true,
            h1, hf, hd]
        have h45 : ¬ ((45 : Byte) = 43) := by decide
        rw [makeInteger]
        simp only [fromChars, minus, if_true, h1, hd, dropPlus, h45, if_false, ez]
        by_cases hb : -2 ^ 63 ≤ -(n : Int) ∧ -(n : Int) < 2 ^ 63
        · rw [if_pos hb]
          simp
        · rw [if_neg hb]
      rw [makeNumber, makeReal, e]

/-- `00fF` in radix 16 meets the hypotheses; its value is 255. -/
example : makeNumber (ascii "00fF") 16 = .number (.int 255) := by
  have := (C61_integer_partial (radix := 16) (vs := [0, 0, 15, 15]) (bs := ascii "00fF") (by omega)
    (by simp [ascii, DigitChar]) (by decide)).1
  exact this

/-- **C61 is false for a leading plus sign**: `+5` is inexact, and `+5/3` is not a number. -/
theorem C61_plus_fails : makeNumber (ascii "+5") 10 = .number (.inexact (ascii "+5")) ∧
    makeNumber (ascii "+5/3") 10 = .invalid := by
  decide

/-- **C61**: `4/2` does not become an exact integer: it is the ratio 2/1. -/
theorem C61_integral_ratio_fails : makeNumber (ascii "4/2") 10 = .number (.ratio 2 1) := by
  decide

/-- **C61 is false for a zero denominator**: every `n/0` raises GMP's division by zero. -/
theorem C61_zero_denominator_fails (n : Int) : makeNumber (intDigits 10 n ++ ascii "/0") 10 = .crash := by
  have e : ascii "/0" = 47 :: [48] := by decide
  have hz : mpzSetStr [48] 10 = some 0 := by decide
  rw [e, makeNumber, makeReal, makeInteger_slash (by omega) (by omega)]
  simp only [makeRatio, span_slash (intDigits_no_slash (radix := 10) (by omega) (by omega) n),
    mpzSetStr_intDigits (radix := 10) (by omega) (by omega) n, hz, if_true]

/-- **C61 is false for embedded spaces**: `string->number` of `1 2` is the ratio 12/1. -/
theorem C61_space_fails : makeNumber (ascii "1 2") 10 = .number (.ratio 12 1) := by
  decide

/-! ### C16: bytes that start no character -/

theorem take_bad {b : Byte} (hb : (0x80 ≤ b.toNat ∧ b.toNat < 0xC2) ∨ 0xF5 ≤ b.toNat) (r : List Byte) :
    Port.take { rest := b :: r } = (.bad, { rest := b :: r }) := by
  have e : Port.peekByte { rest := b :: r } = (some b, { rest := b :: r }) := rfl
  rw [Port.take, e]
  dsimp only
  rw [if_neg (by omega), if_neg (by omega), if_neg (by omega), if_neg (by omega)]

theorem takeTokenLoop_bad {cs : List Char} (h : ∀ c ∈ cs, Plain c) {b : Byte}
    (hb : (0x80 ≤ b.toNat ∧ b.toNat < 0xC2) ∨ 0xF5 ≤ b.toNat) (r : List Byte) :
    takeTokenLoop { rest := encode cs ++ b :: r } = some (.error, { rest := b :: r }) := by
  induction cs with
  | nil =>
    rw [takeTokenLoop, encode, List.flatMap_nil, List.nil_append, Port.peek, take_bad hb]
  | cons c cs ih =>
    obtain ⟨h0, hs⟩ := h c (by simp)
    have e := ih fun c hc => h c (by simp [hc])
    rw [takeTokenLoop, encode, List.flatMap_cons, List.append_assoc, peek_encoded h0]
    simp only [hs, Bool.false_eq_true, if_false, take_encoded]
    simp only [encode] at e
    simp [e]

/-- **C16 (bytes that start no character).** A byte that starts no character, in front of a datum or
inside of a number or symbol of any length, is a read error, and the byte is not consumed. -/
theorem C16_bad_byte {cs : List Char} (h : ∀ c ∈ cs, Plain c) {b : Byte}
    (hb : (0x80 ≤ b.toNat ∧ b.toNat < 0xC2) ∨ 0xF5 ≤ b.toNat) (r : List Byte) :
    read 0 { rest := encode cs ++ b :: r } = some (.error, { rest := b :: r }) := by
  cases cs with
  | nil =>
    rw [read.eq_def, encode, List.flatMap_nil, List.nil_append]
    simp only [Port.ready, Bool.not_false, if_true, ne_eq, not_true_eq_false, if_false, take_bad hb]
  | cons c cs =>
    have hc := h c (by simp)
    have ht : takeToken c.toNat { rest := encode cs ++ b :: r } =
        some (.error, { rest := b :: r }) := by
      have hl := takeTokenLoop_bad (cs := cs) (fun x hx => h x (List.mem_cons_of_mem _ hx)) hb r
      simp [takeToken, hl]
    obtain ⟨hw, h1, h2, h3, h4, h5, h6, h7, h8, h9, h10⟩ := plain_ne hc.2
    rw [read.eq_def, encode, List.flatMap_cons, List.append_assoc]
    simp only [encode] at ht
    simp only [Port.ready, Bool.not_false, if_true, ne_eq, not_true_eq_false, if_false, take_encoded, hw,
      Bool.false_eq_true, h1, h2, h3, h4, h5, h6, h7, h8, h9, h10, ht]
    rfl

example : read 0 { rest := ascii "a1" ++ [0xFF, 0x20] } = some (.error, { rest := [0xFF, 0x20] }) :=
  C16_bad_byte (cs := ['a', '1']) (by simp [Plain, isSpecial]) (b := 0xFF) (by decide) [0x20]

end Meevax.Text
