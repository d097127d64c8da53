import Verif.Lemmas.WriteSimple

/-! # C98: `display` and `write-simple` -/

namespace Meevax.Text

variable {high : Nat → Bool}

/-! ### `display` -/

/-- **C98 for `display`**, if no character, no string and no symbol with special characters is inside of the
datum: the text is the one the report asks for. What is missing are the data with such objects inside
(`C98_inside_fails`). -/
theorem C98_display_partial {d : Datum} {s : List Byte} (h : display high d = some s)
    (hp : ∀ p, Inside p d → ¬ Escaped p) : Shown d s := by
  have h' : write high d = some s := by
    cases d <;> first
      | exact absurd trivial (hp _ (.self _))
      | (rw [← h, display] <;> simp)
  exact write_shown _ d (Nat.le_refl _) hp s h'

/-- **C98 for `display`** of a character. NUL is excluded (`C98_nul_fails`). -/
theorem C98_char_partial {c : Char} (h : c ≠ '\x00') :
    ∃ s, display high (.char c.toNat) = some s ∧ Shown (.char c.toNat) s :=
  ⟨_, by rw [display, utf8_char h], .char c⟩

/-- **C98 for `display`** of a string. NUL is excluded (`C98_nul_fails`). -/
theorem C98_string_partial {cs : List Char} (h : ∀ c ∈ cs, c ≠ '\x00') :
    ∃ s, display high (.string (cs.map Char.toNat)) = some s ∧ Shown (.string (cs.map Char.toNat)) s :=
  ⟨_, by rw [display, utf8String_chars h], .string cs⟩

/-- **C98 fails for everything else**: if there is a character, a string or a symbol with special characters
inside of a list or a vector, or if the datum is such a symbol, the text is not the one the report asks for.
`high` is what `std::isprint` answers above 255. -/
theorem C98_inside_fails (hh : ∀ c, 255 < c → high c = false) {d : Datum}
    (hn : ∀ name, Inside (.symbol name) d → ∃ cs, name = encode cs)
    (hc : ∀ c, d ≠ .char c) (hs : ∀ cs, d ≠ .string cs) {p : Datum} (hi : Inside p d) (he : Escaped p)
    {s : List Byte} (h : display high d = some s) : ¬ Shown d s := by
  intro ht
  have h' : write high d = some s := by
    cases d <;> first
      | exact absurd rfl (hc _)
      | exact absurd rfl (hs _)
      | (rw [← h, display] <;> simp)
  have := (longer hh _ d (Nat.le_refl _) hn s s h' ht).2 ⟨p, hi, he⟩
  omega

/-- `(display '("a" #\b |c d|))` puts `("a" #\b #"c d")` on the port. -/
theorem C98_display_fails :
    display high (listOf [.string [97], .char 98, .symbol (ascii "c d")] .null) = some (ascii "(\"a\" #\\b #\"c d\")") ∧
    Shown (listOf [.string [97], .char 98, .symbol (ascii "c d")] .null) (ascii "(a b c d)") := by
  constructor
  · have h1 : stringOf (ascii "c d") = some (['c', ' ', 'd'].map Char.toNat) := by
      have := decode_chars ['c', ' ', 'd']
      have e : ascii "c d" = ['c', ' ', 'd'].flatMap String.utf8EncodeChar := by decide
      rw [stringOf, e]
      exact this
    have h2 : writeSymbol high (ascii "c d") = some (ascii "#\"c d\"") := by
      rw [writeSymbol, if_neg (by decide), if_pos (by decide), h1]
      simp [writeString, putChar, isPrint]
      decide
    have h3 : writeString high [97] = ascii "\"a\"" := by
      simp [writeString, putChar, isPrint]
      decide
    have h4 : writeChar 98 = ascii "#\\b" := by decide
    show display high (.cons _ (.cons _ (.cons _ .null))) = _
    rw [display, write, writeTail, writeTail, writeTail, write, write, write, h2, h3, h4]
    · simp
      decide
    all_goals simp
  · have h := Shown.list (x := .string [97]) (xs := [.char 98, .symbol (ascii "c d")])
      (ss := [encode ['a'], String.utf8EncodeChar 'b', ascii "c d"])
      (.cons (.string ['a']) (.cons (.char 'b') (.cons (.symbol _) .nil)))
    have e : ascii "(" ++ spaced [encode ['a'], String.utf8EncodeChar 'b', ascii "c d"] ++ ascii ")" = ascii "(a b c d)" := by
      decide
    rw [e] at h
    exact h

/-- **C98 fails for NUL**: nothing is put on the port. -/
theorem C98_nul_fails : display high (.char 0) = some [] ∧ display high (.string [97, 0, 98]) = some (ascii "ab") ∧
    ¬ Shown (.char 0) [] ∧ ¬ Shown (.string [97, 0, 98]) (ascii "ab") := by
  refine ⟨by rw [display]; decide, by rw [display]; decide, fun h => ?_, fun h => ?_⟩
  · generalize hc : (0 : Nat) = n at h
    generalize hs : ([] : List Byte) = s at h
    cases h with
    | char c => exact encode_ne_nil c hs.symm
  · generalize hc : [97, 0, 98] = n at h
    generalize hs : ascii "ab" = s at h
    cases h with
    | string cs =>
      have h3 : cs.length = 3 := by
        have := congrArg List.length hc
        simpa using this.symm
      have h2 : cs.length ≤ (encode cs).length := by
        clear hs hc h3
        induction cs with
        | nil => simp
        | cons c cs ih =>
          have := List.length_pos_iff.2 (encode_ne_nil c)
          change cs.length ≤ (cs.flatMap String.utf8EncodeChar).length at ih
          simp only [List.flatMap_cons, List.length_append, List.length_cons]
          omega
      rw [← hs] at h2
      have : (ascii "ab").length = 2 := by decide
      omega

/-! ### `write-simple` -/

/-- **C98 for `write-simple`**, if there is no dotted list in the datum: it puts on the port what `write` does.
What is missing are dotted lists (`C98_dotted_fails`). -/
theorem C98_simple_partial {d : Datum} (hd : ¬ HasDot d) {s : List Byte} (h : write high d = some s) :
    writeSimple high d = some { text := s, done := true } := by
  have := (writeSimple_proper (high := high) d).1 (Bool.eq_false_iff.2 fun h => hd (hasDot_iff.2 h))
  rw [this, h]
  rfl

/-- **C98 fails for every datum with a dotted list**: `write-simple` puts another text than `write` on the port,
or its behaviour is undefined. -/
theorem C98_dotted_fails {d : Datum} (hd : HasDot d) {s : List Byte} (h : write high d = some s) :
    writeSimple high d ≠ some { text := s, done := true } := by
  intro ho
  have := ((simple_longer (high := high) d).1 _ s ho h rfl).2 (hasDot_iff.1 hd)
  exact absurd this (Nat.lt_irrefl _)

/-- `(write-simple '(a . b))` puts `(a . b))` on the port. -/
theorem C98_simple_fails :
    writeSimple high (.cons (.symbol (ascii "a")) (.symbol (ascii "b"))) =
      some { text := ascii "(a . b))", done := true } := by
  have h1 : writeSymbol high (ascii "a") = some (ascii "a") := by
    rw [writeSymbol, if_neg (by decide), if_neg (by decide)]
  have h2 : writeSymbol high (ascii "b") = some (ascii "b") := by
    rw [writeSymbol, if_neg (by decide), if_neg (by decide)]
  rw [writeSimple, writeSimple, simpleTail, write, write, h1, h2]
  · simp [Output.andThen]
    decide
  all_goals simp

/-- After `(write-simple '(a . 1))` has put `(a . 1)` on the port, the behaviour is undefined: the fixnum is
used as an address. -/
theorem C98_fixnum_fails :
    writeSimple high (.cons (.symbol (ascii "a")) (.num (.int 1))) = some { text := ascii "(a . 1)", done := false } := by
  have h1 : writeSymbol high (ascii "a") = some (ascii "a") := by
    rw [writeSymbol, if_neg (by decide), if_neg (by decide)]
  have h2 : intDigits 10 1 = ascii "1" := by
    simp [intDigits, natDigits]
    decide
  rw [writeSimple, writeSimple, simpleTail, simpleNumber, write, writeNum, h1, h2]
  · simp [Output.andThen]
    decide
  all_goals simp

/-- `C98_display_partial` and `C98_simple_partial` are about data such as `(a (b) #(c))`. -/
example : ∃ s, display high (listOf [.symbol (ascii "a"), .vector [.symbol (ascii "b"), .bool true]] .null) = some s ∧
    Shown (listOf [.symbol (ascii "a"), .vector [.symbol (ascii "b"), .bool true]] .null) s ∧
    writeSimple high (listOf [.symbol (ascii "a"), .vector [.symbol (ascii "b"), .bool true]] .null) =
      some { text := s, done := true } := by
  have h1 : writeSymbol high (ascii "a") = some (ascii "a") := by
    rw [writeSymbol, if_neg (by decide), if_neg (by decide)]
  have h2 : writeSymbol high (ascii "b") = some (ascii "b") := by
    rw [writeSymbol, if_neg (by decide), if_neg (by decide)]
  have hw : write high (listOf [.symbol (ascii "a"), .vector [.symbol (ascii "b"), .bool true]] .null) =
      some (ascii "(a #(b #t))") := by
    show write high (.cons _ (.cons _ .null)) = _
    rw [write, writeTail, writeTail, write, write, writeElements, writeElements, write, write, h1, h2]
    · simp
      decide
    all_goals simp
  refine ⟨_, hw, ?_, C98_simple_partial ?_ hw⟩
  · refine C98_display_partial (high := high) hw ?_
    intro p hp
    cases hp with
    | self => exact id
    | car hp =>
      cases hp
      simp [Escaped]
      decide
    | cdr hp =>
      cases hp with
      | self => exact id
      | cdr hp =>
        cases hp
        exact id
      | car hp =>
        cases hp with
        | self => exact id
        | element hx hp =>
          simp at hx
          rcases hx with rfl | rfl
          · cases hp
            simp [Escaped]
            decide
          · cases hp
            exact id
  · rw [hasDot_iff]
    simp [listOf, hasDot, dotTail]

/-- `C98_inside_fails` is about data such as `("a")`, and `C98_dotted_fails` about data such as `((a . b))`. -/
example : Inside (.string [97]) (listOf [.string [97]] .null) ∧ Escaped (.string [97]) ∧
    HasDot (listOf [.cons (.symbol (ascii "a")) (.symbol (ascii "b"))] .null) :=
  ⟨.car (.self _), trivial, .element List.mem_cons_self (.here (x := .symbol (ascii "a")) (xs := []) (by simp) (by simp))⟩

end Meevax.Text
