import Verif.Lemmas.Utf8

/-! C16, C17, C59: characters on textual ports. The reference encoding is Lean's own
`String.utf8EncodeChar`. -/

namespace Meevax.Text

/-! ### C16: encoding -/

/-- **C16, all scalar values except NUL**: the bytes written for a character are its UTF-8 encoding;
reading them gives the character back, whatever follows, and leaves the input right after it. -/
theorem C16_char_partial {c : Char} (h : c ≠ '\x00') (rest : List Byte) :
    utf8 c.toNat = String.utf8EncodeChar c ∧
      Port.readChar { rest := utf8 c.toNat ++ rest } = (.char c.toNat, { rest := rest }) := by
  rw [utf8_char h]
  exact ⟨rfl, take_encoded c rest⟩

/-- `n` calls of `read-char`. -/
def readChars : Nat → Port → List Take × Port
  | 0, p => ([], p)
  | n + 1, p =>
    let (c, p) := p.readChar
    let (cs, p) := readChars n p
    (c :: cs, p)

/-- **C16, sequences without NUL**: a written sequence reads back as the same sequence. -/
theorem C16_sequence_partial {cs : List Char} (h : ∀ c ∈ cs, c ≠ '\x00') (rest : List Byte) :
    readChars cs.length { rest := utf8String (cs.map Char.toNat) ++ rest } =
      (cs.map fun c => .char c.toNat, { rest := rest }) := by
  induction cs with
  | nil => rfl
  | cons c cs ih =>
    have e : utf8String ((c :: cs).map Char.toNat) ++ rest =
        utf8 c.toNat ++ (utf8String (cs.map Char.toNat) ++ rest) := by
      simp [utf8String]
    rw [List.length_cons, readChars, e, (C16_char_partial (h c (by simp)) _).2]
    simp only [ih fun c hc => h c (by simp [hc])]
    rfl

/-- **C16, `utf8->string` of `string->utf8`**, without NUL. -/
theorem C16_string_partial {cs : List Char} (h : ∀ c ∈ cs, c ≠ '\x00') :
    stringOf (utf8String (cs.map Char.toNat)) = some (cs.map Char.toNat) := by
  rw [stringOf, utf8String_chars h]
  exact decode_chars cs

/-- Three characters of one, two and four bytes meet the hypotheses. -/
example : ∀ c ∈ ['a', 'é', '😀'], c ≠ '\x00' := by decide

example : utf8String (['a', 'é', '😀'].map Char.toNat) =
    [0x61, 0xC3, 0xA9, 0xF0, 0x9F, 0x98, 0x80] := by decide

/-- **C16 is false for NUL**: nothing is written for it, so a string with a NUL reads back shorter. -/
theorem C16_nul_fails : utf8 0 = [] ∧ stringOf (utf8String [0x61, 0, 0x62]) = some [0x61, 0x62] := by
  refine ⟨by decide, ?_⟩
  have e : utf8String [0x61, 0, 0x62] = ['a', 'b'].flatMap String.utf8EncodeChar := by decide
  rw [stringOf, e, decode_chars]
  rfl

/-- **Malformed input is not rejected**: a truncated sequence, and continuation bytes that are not
continuation bytes, give characters. -/
theorem C16_malformed_accepted :
    (Port.readChar { rest := [0xE3] }).1 = .char 0x3FFF ∧
      (Port.readChar { rest := [0xC2, 0x28] }).1 = .char 0xA8 ∧
      (Port.readChar { rest := [0xED, 0xA0, 0x80] }).1 = .char 0xD800 := by
  decide

/-! ### C17: peek-char -/

/-- An operation on a port. -/
inductive Op where
  | peek
  | read

/-- What a sequence of operations yields. -/
def runOps : List Op → Port → List Take
  | [], _ => []
  | .peek :: ops, p => p.peekChar.1 :: runOps ops p.peekChar.2
  | .read :: ops, p => p.readChar.1 :: runOps ops p.readChar.2

/-- What it should yield on a text: peeking shows the next character and changes nothing. -/
def specOps : List Op → List Char → List Take
  | [], _ => []
  | _ :: ops, [] => .eof :: specOps ops []
  | .peek :: ops, c :: cs => .char c.toNat :: specOps ops (c :: cs)
  | .read :: ops, c :: cs => .char c.toNat :: specOps ops cs

theorem runOps_failed (ops : List Op) : ∀ {p : Port}, p.fail = true → runOps ops p = specOps ops [] := by
  induction ops with
  | nil => intros; rfl
  | cons op ops ih =>
    intro p h
    cases op with
    | peek =>
      rw [runOps, specOps, Port.peekChar, peek_failed h]
      exact congrArg _ (ih h)
    | read =>
      rw [runOps, specOps, Port.readChar, take_failed h]
      exact congrArg _ (ih h)

/-- **C17, texts without NUL**: any sequence of `peek-char` and `read-char`, also beyond the end of
the text, yields what it should. -/
theorem C17_peek_partial (ops : List Op) : ∀ {cs : List Char}, (∀ c ∈ cs, c ≠ '\x00') →
    runOps ops { rest := cs.flatMap String.utf8EncodeChar } = specOps ops cs := by
  induction ops with
  | nil => intros; rfl
  | cons op ops ih =>
    intro cs h
    cases cs with
    | nil =>
      cases op with
      | peek =>
        rw [runOps, specOps, Port.peekChar, List.flatMap_nil, peek_end]
        exact congrArg _ (runOps_failed ops rfl)
      | read =>
        rw [runOps, specOps, Port.readChar, List.flatMap_nil, take_end]
        exact congrArg _ (runOps_failed ops rfl)
    | cons c cs =>
      cases op with
      | peek =>
        rw [runOps, specOps, Port.peekChar, List.flatMap_cons, peek_encoded (h c (by simp)),
          ← List.flatMap_cons]
        exact congrArg _ (ih h)
      | read =>
        rw [runOps, specOps, Port.readChar, List.flatMap_cons, take_encoded]
        exact congrArg _ (ih fun c hc => h c (by simp [hc]))

/-- A text and operations that meet the hypotheses. -/
example : runOps [.peek, .peek, .read, .peek, .read, .peek, .read]
    { rest := ['é', 'x'].flatMap String.utf8EncodeChar } =
    [.char 0xE9, .char 0xE9, .char 0xE9, .char 0x78, .char 0x78, .eof, .eof] :=
  C17_peek_partial _ (by decide)

/-- **C17 is false for NUL**: peeking at a NUL consumes it. -/
theorem C17_nul_fails : runOps [.peek, .read] { rest := [0, 0x61] } = [.char 0, .char 0x61] := by
  decide

/-! ### C59: read-line and read-string -/

theorem takeUntil_newline {bs : List Byte} (h : ∀ b ∈ bs, b.toNat ≤ 127 ∧ b ≠ 10) (rest : List Byte) :
    Port.takeUntil (fun c => decide (c = 10)) { rest := bs ++ 10 :: rest } =
      some (bs, { rest := rest }) := by
  have ta : ∀ {b : Byte} (_ : b.toNat ≤ 127) (r : List Byte),
      Port.take { rest := b :: r } = (.char b.toNat, { rest := r }) := by
    intro b hb r
    have hm : b.toNat &&& 255 = b.toNat := by
      have := and_mask b.toNat 8
      have e : b.toNat % 2 ^ 8 = b.toNat := Nat.mod_eq_of_lt b.toNat_lt
      rw [e] at this
      exact this
    simp [Port.take, Port.peekByte, Port.getByte, Port.good, masked, hb, hm]
  induction bs with
  | nil =>
    rw [Port.takeUntil, List.nil_append, ta (by decide)]
    rfl
  | cons b bs ih =>
    obtain ⟨h1, h2⟩ := h b (by simp)
    have h2' : b.toNat ≠ 10 := fun e => h2 (UInt8.toNat_inj.1 e)
    rw [Port.takeUntil, List.cons_append, ta h1]
    simp [Port.ready, h2', ih fun b hb => h b (by simp [hb])]

/-- **C59, ASCII lines that end in a newline**: `read-line` returns the text before the newline and
leaves the input right after it. -/
theorem C59_line_partial {cs : List Char} (h : ∀ c ∈ cs, c.toNat ≤ 127 ∧ c ≠ '\n') (rest : List Byte) :
    Port.readLine { rest := cs.flatMap String.utf8EncodeChar ++ 10 :: rest } =
      some (some (cs.map Char.toNat), { rest := rest }) := by
  have hb : ∀ b ∈ cs.flatMap String.utf8EncodeChar, b.toNat ≤ 127 ∧ b ≠ 10 := by
    intro b hb
    obtain ⟨c, hc, hb⟩ := List.mem_flatMap.1 hb
    obtain ⟨h1, h2⟩ := h c hc
    have e : String.utf8EncodeChar c = [.ofNat c.toNat] := by
      have e : c.val.toNat = c.toNat := rfl
      simp [String.utf8EncodeChar, e, h1]
    rw [e, List.mem_singleton] at hb
    have e' : b.toNat = c.toNat := by
      rw [hb]
      simp
      omega
    refine ⟨by omega, ?_⟩
    rintro rfl
    exact h2 (Char.toNat_inj.1 e'.symm)
  rw [Port.readLine, takeUntil_newline hb]
  simp [stringOf, decode_chars]

/-- A line that meets the hypothesis. -/
example : ∀ c ∈ ['h', 'i', ' '], c.toNat ≤ 127 ∧ c ≠ '\n' := by decide

/-- **C59 is false for a last line without newline**: `read-line` answers the end-of-file object and
the text is lost. -/
theorem C59_last_line_fails : (Port.readLine { rest := [0x61] }).map Prod.fst = some none := by
  have t1 : Port.take { rest := [0x61] } = (.char 0x61, { rest := [] }) := by decide
  have : Port.takeUntil (fun c => decide (c = 10)) { rest := [0x61] } =
      some ([0x61, 0xFF], { rest := [], eof := true, fail := true }) := by
    rw [Port.takeUntil, t1]
    simp only [Port.ready, Bool.not_false, if_true]
    have t2 : Port.takeUntil (fun c => decide (c = 10)) { rest := [] } =
        some ([0xFF], { rest := [], eof := true, fail := true }) := by
      rw [Port.takeUntil, take_end]
      simp only [Port.ready, Bool.not_false, if_true]
      rw [Port.takeUntil]
      rfl
    rw [t2]
    rfl
  rw [Port.readLine, this]
  rfl

/-- **C59 is false beyond ASCII**: a line of the character U+00E9 comes back as U+9FFF. -/
theorem C59_non_ascii_fails :
    (Port.readLine { rest := String.utf8EncodeChar 'é' ++ [10] }).map Prod.fst = some (some [0x9FFF]) := by
  have : Port.takeUntil (fun c => decide (c = 10)) { rest := String.utf8EncodeChar 'é' ++ [10] } =
      some ([0xE9], { rest := [] }) := by
    rw [Port.takeUntil, take_encoded]
    have t2 : Port.takeUntil (fun c => decide (c = 10)) { rest := [10] } = some ([], { rest := [] }) := by
      rw [Port.takeUntil]
      rfl
    simp only [Port.ready, Bool.not_false, if_true]
    rw [t2]
    rfl
  have d : stringOf [0xE9] = some [0x9FFF] := by
    rw [stringOf, decode]
    have : Port.take { rest := [0xE9] } = (.char 0x9FFF, { rest := [], eof := true, fail := true }) := by
      decide
    rw [this]
    simp only
    rw [decode, take_failed rfl]
    rfl
  rw [Port.readLine, this]
  simp [d]

/-- **`read-string`**: for a text without NUL, `k` characters, or what is left of them. -/
theorem C59_read_string_partial {cs : List Char} (h : ∀ c ∈ cs, c ≠ '\x00') (hne : cs ≠ []) (k : Nat) :
    ∃ p, Port.readString { rest := cs.flatMap String.utf8EncodeChar } k =
        some (some ((cs.take k).map Char.toNat), p) ∧
      p.rest = (cs.drop k).flatMap String.utf8EncodeChar ∧
      (k ≤ cs.length → p = { rest := (cs.drop k).flatMap String.utf8EncodeChar }) := by
  have loop : ∀ (k : Nat) {cs : List Char}, (∀ c ∈ cs, c ≠ '\x00') → ∃ p,
      Port.getLoop { rest := cs.flatMap String.utf8EncodeChar } k =
        some ((cs.take k).map Char.toNat, p) ∧
      p.rest = (cs.drop k).flatMap String.utf8EncodeChar ∧
      (k ≤ cs.length → p = { rest := (cs.drop k).flatMap String.utf8EncodeChar }) := by
    intro k
    induction k with
    | zero => intro cs _; exact ⟨_, rfl, rfl, fun _ => rfl⟩
    | succ k ih =>
      intro cs h
      cases cs with
      | nil =>
        refine ⟨{ rest := [], eof := false, fail := true }, ?_, rfl, fun h => absurd h (by simp)⟩
        rw [Port.getLoop, List.flatMap_nil, peek_end]
        rfl
      | cons c cs =>
        obtain ⟨p, e, er, ep⟩ := ih fun c hc => h c (List.mem_cons_of_mem _ hc)
        refine ⟨p, ?_, er, fun h => ep (by simpa using h)⟩
        rw [Port.getLoop, List.flatMap_cons, peek_encoded (h c (by simp))]
        simp only [take_encoded, e]
        rfl
  obtain ⟨p, e, er, ep⟩ := loop k h
  refine ⟨p, ?_, er, ep⟩
  cases cs with
  | nil => exact (hne rfl).elim
  | cons c cs =>
    rw [Port.readString, List.flatMap_cons, peek_encoded (h c (by simp)), ← List.flatMap_cons]
    simp only [e]
    rfl

end Meevax.Text
