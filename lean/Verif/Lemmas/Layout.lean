import Verif.Lemmas.RoundTrip
import Verif.Spec.Layout

/-! `read` on data with white space and comments between the tokens. -/

namespace Meevax.Text

theorem skipBlock_nested {body : List Char} (h : Nested body) : ∀ (n : Nat) (r : List Byte),
    skipBlock (n + 1) { rest := encode body ++ 124 :: 35 :: r } = skipBlock n { rest := r } := by
  have e35 : UInt8.toNat 35 = 35 := rfl
  have e124 : UInt8.toNat 124 = 124 := rfl
  have c35 : ('#' : Char).toNat = 35 := rfl
  have c124 : ('|' : Char).toNat = 124 := rfl
  have u35 : String.utf8EncodeChar '#' = [35] := rfl
  have u124 : String.utf8EncodeChar '|' = [124] := rfl
  have n35 : ∀ {c : Char}, c ≠ '#' → c.toNat ≠ 35 := fun h e => h (Char.toNat_inj.1 e)
  have n124 : ∀ {c : Char}, c ≠ '|' → c.toNat ≠ 124 := fun h e => h (Char.toNat_inj.1 e)
  induction h with
  | nil =>
    intro n r
    conv_lhs => rw [skipBlock]
    rw [encode, List.flatMap_nil, List.nil_append, take_ascii (by decide)]
    simp only [Nat.add_eq_zero_iff, Nat.one_ne_zero, and_false, if_false, e124, Nat.reduceEqDiff,
      if_true]
    rw [peek_ascii (by decide) (by decide)]
    simp only [e35]
    rw [take_ascii (by decide)]
    rfl
  | other h1 h2 _ ih =>
    intro n r
    conv_lhs => rw [skipBlock]
    rw [encode, List.flatMap_cons, List.append_assoc, take_encoded]
    simp only [Nat.add_eq_zero_iff, Nat.one_ne_zero, and_false, if_false, n35 h1, n124 h2]
    exact ih n r
  | @hash c cs h1 h0 _ ih =>
    intro n r
    conv_lhs => rw [skipBlock]
    have := ih n r
    rw [encode, List.flatMap_cons, List.append_assoc] at this
    rw [encode, List.flatMap_cons, List.append_assoc, take_encoded, List.flatMap_cons,
      List.append_assoc]
    simp only [Nat.add_eq_zero_iff, Nat.one_ne_zero, and_false, if_false, c35, if_true,
      peek_encoded h0]
    split
    · rename_i heq
      cases heq
    · rename_i heq
      exact (n124 h1 (Take.char.inj (Prod.mk.inj heq).1)).elim
    · rename_i heq
      rw [← (Prod.mk.inj heq).2]
      exact this
  | @bar c cs h1 h0 _ ih =>
    intro n r
    conv_lhs => rw [skipBlock]
    have := ih n r
    rw [encode, List.flatMap_cons, List.append_assoc] at this
    rw [encode, List.flatMap_cons, List.append_assoc, take_encoded, List.flatMap_cons,
      List.append_assoc]
    simp only [Nat.add_eq_zero_iff, Nat.one_ne_zero, and_false, if_false, c124, if_true,
      peek_encoded h0, Nat.reduceEqDiff]
    split
    · rename_i heq
      cases heq
    · rename_i heq
      exact (n35 h1 (Take.char.inj (Prod.mk.inj heq).1)).elim
    · rename_i heq
      rw [← (Prod.mk.inj heq).2]
      exact this
  | lastBar =>
    intro n r
    conv_lhs => rw [skipBlock]
    have e : encode ['|'] ++ 124 :: 35 :: r = 124 :: 124 :: 35 :: r := rfl
    rw [e, take_ascii (by decide)]
    simp only [Nat.add_eq_zero_iff, Nat.one_ne_zero, and_false, if_false, e124, Nat.reduceEqDiff,
      if_true]
    rw [peek_ascii (by decide) (by decide)]
    simp only [e124]
    conv_lhs => rw [skipBlock]
    rw [take_ascii (by decide)]
    simp only [Nat.add_eq_zero_iff, Nat.one_ne_zero, and_false, if_false, e124, Nat.reduceEqDiff,
      if_true]
    rw [peek_ascii (by decide) (by decide)]
    simp only [e35]
    rw [take_ascii (by decide)]
    rfl
  | @comment body cs _ _ ih1 ih2 =>
    intro n r
    conv_lhs => rw [skipBlock]
    have e : encode ('#' :: '|' :: (body ++ '|' :: '#' :: cs)) ++ 124 :: 35 :: r =
        35 :: 124 :: (encode body ++ 124 :: 35 :: (encode cs ++ 124 :: 35 :: r)) := by
      simp [encode, u35, u124]
    rw [e, take_ascii (by decide)]
    simp only [Nat.add_eq_zero_iff, Nat.one_ne_zero, and_false, if_false, e35, if_true]
    rw [peek_ascii (by decide) (by decide)]
    simp only [e124]
    rw [take_ascii (by decide)]
    rw [ih1 (n + 1), ih2 n]

theorem read_line (text : List Char) (h : '\n' ∉ text) (r : List Byte) :
    read 0 { rest := 59 :: (encode text ++ 10 :: r) } = read 0 { rest := r } := by
  obtain ⟨s, e⟩ := takeUntil_chars (stop := fun c => decide (c = 10)) (cs := text) (e := 10)
    (by decide) (by decide) (by
      intro c hc
      simp only [decide_eq_false_iff_not]
      intro e
      exact h (by rwa [show '\n' = c from (Char.toNat_inj.1 e).symm])) r
  conv_lhs => rw [read.eq_def]
  simp [Port.ready, take_ascii (b := 59) (by decide), isWhite, e]

theorem read_block {text : List Char} (h : Nested text) (r : List Byte) :
    read 0 { rest := 35 :: 124 :: (encode text ++ 124 :: 35 :: r) } = read 0 { rest := r } := by
  have hs := skipBlock_nested h 0 r
  have h0 : skipBlock 0 { rest := r } = some (true, { rest := r }) := by rw [skipBlock]; rfl
  rw [h0] at hs
  rw [read_hash, readHash.eq_def, take_ascii (by decide)]
  simp only [Nat.zero_add] at hs
  simp [isDigitChar, hs]

theorem read_comment {s r : List Byte} {b : Byte} {d : Datum} {p : Port}
    (h : read 0 { rest := s } = some (.datum d, p)) (ends : Ends (b :: r) p) :
    read 0 { rest := 35 :: 59 :: s } = read 0 { rest := b :: r } := by
  rw [read_hash, readHash.eq_def, take_ascii (by decide)]
  rw [ends.eq] at h
  simp [h]

theorem read_quote {s : List Byte} {d : Datum} {p : Port}
    (h : read 0 { rest := s } = some (.datum d, p)) :
    read 0 { rest := 39 :: s } =
      some (.datum (.cons (.symbol (ascii "quote")) (.cons d .null)), p) := by
  rw [read.eq_def]
  simp [Port.ready, take_ascii (b := 39) (by decide), isWhite, h, tagged]

theorem read_quasiquote {s : List Byte} {d : Datum} {p : Port}
    (h : read 0 { rest := s } = some (.datum d, p)) :
    read 0 { rest := 96 :: s } =
      some (.datum (.cons (.symbol (ascii "quasiquote")) (.cons d .null)), p) := by
  rw [read.eq_def]
  simp [Port.ready, take_ascii (b := 96) (by decide), isWhite, h, tagged]

/-- What the reader does with a layout. -/
def Mode.Ok : Mode → Datum → List Byte → Prop
  | .blank false, _, s => ∀ rest, read 0 { rest := s ++ rest } = read 0 { rest := rest }
  | .blank true, _, s => ∀ rest, StartsDelimited rest →
    read 0 { rest := s ++ rest } = read 0 { rest := rest }
  | .datum, d, s => Reads s d
  | .tail, d, s => ∀ rest, read 40 { rest := s ++ rest } = some (.datum d, { rest := rest })

theorem Mode.Ok.blank {n : Bool} {s : List Byte} (h : Mode.Ok (.blank n) .null s) {rest : List Byte}
    (hr : n = true → StartsDelimited rest) :
    read 0 { rest := s ++ rest } = read 0 { rest := rest } := by
  cases n with
  | false => exact h rest
  | true => exact h rest (hr rfl)

theorem Mode.Ok.blank40 {n : Bool} {s : List Byte} (h : Mode.Ok (.blank n) .null s) {rest : List Byte}
    (hr : n = true → StartsDelimited rest) :
    read 40 { rest := s ++ rest } = read 40 { rest := rest } := by
  rw [read.eq_def, read.eq_def 40 { rest := rest }]
  simp [Port.ready, isWhite, h.blank hr]

theorem StartsDelimited.append {s : List Byte} (h : StartsDelimited s) (t : List Byte) :
    StartsDelimited (s ++ t) := by
  obtain ⟨b, bs, rfl, hb⟩ := h
  exact ⟨b, bs ++ t, rfl, hb⟩

theorem StartsDelimited.delimited {s : List Byte} (h : StartsDelimited s) : Delimited s := Or.inr h

theorem startsDelimited_close (r : List Byte) : StartsDelimited (41 :: r) :=
  ⟨41, r, rfl, special_close⟩

/-- Space that is not empty starts with a delimiter. -/
theorem blank_starts {high : Nat → Bool} {m : Mode} {d : Datum} {s : List Byte} (h : Layout high m d s)
    (hm : ∃ n, m = .blank n) (hs : s ≠ []) : StartsDelimited s := by
  cases h with
  | nil => exact (hs rfl).elim
  | white hw _ =>
    refine ⟨_, _, rfl, ?_⟩
    simp [isWhite] at hw
    simp [isSpecial]
    omega
  | line _ _ => exact ⟨_, _, rfl, by decide⟩
  | block _ _ => exact ⟨_, _, rfl, by decide⟩
  | comment _ _ _ _ _ => exact ⟨_, _, rfl, by decide⟩
  | lastComment _ _ _ => exact ⟨_, _, rfl, by decide⟩
  | _ => obtain ⟨n, hn⟩ := hm; cases hn

/-- Reading a datum in front of a delimiter. -/
theorem Reads.at {s : List Byte} {d : Datum} (h : Reads s d) {t : List Byte} (ht : StartsDelimited t) :
    read 0 { rest := s ++ t } = some (.datum d, { rest := t }) := by
  obtain ⟨p, e, ends⟩ := h t ht.delimited
  obtain ⟨b, bs, rfl, -⟩ := ht
  rw [ends.eq] at e
  exact e

theorem layout_ok {high : Nat → Bool} {m : Mode} {d : Datum} {s : List Byte} (h : Layout high m d s) :
    m.Ok d s := by
  induction h with
  | nil => exact fun rest => rfl
  | @white b n s hb _ ih =>
    cases n with
    | false => exact fun rest => (read_white hb _).trans (ih rest)
    | true => exact fun rest hr => (read_white hb _).trans (ih rest hr)
  | @line text n s ht _ ih =>
    have e : ∀ rest, 59 :: (encode text ++ 10 :: s) ++ rest = 59 :: (encode text ++ 10 :: (s ++ rest)) := by
      simp
    cases n with
    | false => exact fun rest => by rw [e, read_line text ht]; exact ih rest
    | true => exact fun rest hr => by rw [e, read_line text ht]; exact ih rest hr
  | @block text n s ht _ ih =>
    have e : ∀ rest, 35 :: 124 :: (encode text ++ 124 :: 35 :: s) ++ rest =
        35 :: 124 :: (encode text ++ 124 :: 35 :: (s ++ rest)) := by
      simp
    cases n with
    | false => exact fun rest => by rw [e, read_block ht]; exact ih rest
    | true => exact fun rest hr => by rw [e, read_block ht]; exact ih rest hr
  | @comment n n' s₁ d s₂ s₃ _ _ h3 hne hd ih1 ih2 ih3 =>
    have key : ∀ rest, (n' = true → StartsDelimited rest) →
        read 0 { rest := 35 :: 59 :: (s₁ ++ (s₂ ++ s₃)) ++ rest } = read 0 { rest := rest } := by
      intro rest hr
      obtain ⟨b, bs, e3, hb⟩ := blank_starts h3 ⟨_, rfl⟩ hne
      have e : 35 :: 59 :: (s₁ ++ (s₂ ++ s₃)) ++ rest = 35 :: 59 :: (s₁ ++ (s₂ ++ (s₃ ++ rest))) := by
        simp
      have e1 : read 0 { rest := s₁ ++ (s₂ ++ (s₃ ++ rest)) } = some (.datum d, { rest := s₃ ++ rest }) := by
        rw [Mode.Ok.blank ih1 fun hn => (hd hn).append _]
        exact Reads.at ih2 (StartsDelimited.append ⟨b, bs, e3, hb⟩ rest)
      rw [e, read_comment (b := b) (r := bs ++ rest) e1]
      · rw [← List.cons_append, ← e3]
        exact Mode.Ok.blank ih3 hr
      · rw [e3]
        exact Ends.good _
    cases n' with
    | false => exact fun rest => key rest nofun
    | true => exact fun rest hr => key rest fun _ => hr
  | @lastComment n s₁ d s₂ _ _ hd ih1 ih2 =>
    intro rest hr
    have e : 35 :: 59 :: (s₁ ++ s₂) ++ rest = 35 :: 59 :: (s₁ ++ (s₂ ++ rest)) := by simp
    have e1 : read 0 { rest := s₁ ++ (s₂ ++ rest) } = some (.datum d, { rest := rest }) := by
      rw [Mode.Ok.blank ih1 fun hn => (hd hn).append _]
      exact Reads.at ih2 hr
    obtain ⟨b, bs, rfl, hb⟩ := hr
    rw [e, read_comment e1 (Ends.good _)]
  | written hr hw =>
    obtain ⟨s', e, rs⟩ := read_write _ _ hr
    rw [hw] at e
    cases e
    exact rs
  | @null n s _ ih =>
    intro rest _
    have e : 40 :: (s ++ [41]) ++ rest = 40 :: (s ++ 41 :: rest) := by simp
    refine ⟨_, ?_, Ends.good rest⟩
    rw [e, read_open, Mode.Ok.blank40 ih fun _ => startsDelimited_close _]
    exact read_list_end rfl (read_close rest)
  | @list n s₁ a s₂ d s₃ _ _ _ h3 hd ih1 ih2 ih3 =>
    intro rest _
    have e : 40 :: (s₁ ++ (s₂ ++ s₃)) ++ rest = 40 :: (s₁ ++ (s₂ ++ (s₃ ++ rest))) := by simp
    refine ⟨_, ?_, Ends.good rest⟩
    rw [e, read_open, Mode.Ok.blank40 ih1 fun hn => (hd hn).append _]
    exact read_list rfl (Reads.at ih2 (h3.append rest)) (ih3 rest)
  | @vectorNil n s _ ih =>
    intro rest _
    have e : 35 :: 40 :: (s ++ [41]) ++ rest = 35 :: 40 :: (s ++ 41 :: rest) := by simp
    refine ⟨_, ?_, Ends.good rest⟩
    have e1 : read 40 { rest := s ++ 41 :: rest } = some (.datum .null, { rest := rest }) := by
      rw [Mode.Ok.blank40 ih fun _ => startsDelimited_close _]
      exact read_list_end rfl (read_close rest)
    rw [e, read_hash, readHash.eq_def, take_ascii (by decide)]
    simp [isDigitChar, e1, Datum.elements]
  | @vector n s₁ a s₂ xs s₃ _ _ _ h3 hd ih1 ih2 ih3 =>
    intro rest _
    have e : 35 :: 40 :: (s₁ ++ (s₂ ++ s₃)) ++ rest = 35 :: 40 :: (s₁ ++ (s₂ ++ (s₃ ++ rest))) := by
      simp
    refine ⟨_, ?_, Ends.good rest⟩
    have e1 : read 40 { rest := s₁ ++ (s₂ ++ (s₃ ++ rest)) } =
        some (.datum ((a :: xs).foldr .cons .null), { rest := rest }) := by
      rw [Mode.Ok.blank40 ih1 fun hn => (hd hn).append _]
      exact read_list rfl (Reads.at ih2 (h3.append rest)) (ih3 rest)
    rw [e, read_hash, readHash.eq_def, take_ascii (by decide)]
    simp only [show UInt8.toNat 40 = 40 from rfl, e1]
    simp only [isDigitChar, Option.bind_eq_bind, Option.bind_some, elements_ofList]
    rfl
  | @quote n s₁ d s₂ _ _ hd ih1 ih2 =>
    intro rest hr
    obtain ⟨p, e, ends⟩ := ih2 rest hr
    refine ⟨p, ?_, ends⟩
    rw [List.cons_append]
    apply read_quote
    rw [List.append_assoc, Mode.Ok.blank ih1 fun hn => (hd hn).append _]
    exact e
  | @quasiquote n s₁ d s₂ _ _ hd ih1 ih2 =>
    intro rest hr
    obtain ⟨p, e, ends⟩ := ih2 rest hr
    refine ⟨p, ?_, ends⟩
    rw [List.cons_append]
    apply read_quasiquote
    rw [List.append_assoc, Mode.Ok.blank ih1 fun hn => (hd hn).append _]
    exact e
  | @tailNull n s _ ih =>
    intro rest
    have e : s ++ [41] ++ rest = s ++ 41 :: rest := by simp
    rw [e, Mode.Ok.blank40 ih fun _ => startsDelimited_close _]
    exact read_list_end rfl (read_close rest)
  | @tailCons n s₁ a s₂ d s₃ _ _ _ h3 hd ih1 ih2 ih3 =>
    intro rest
    have e : s₁ ++ (s₂ ++ s₃) ++ rest = s₁ ++ (s₂ ++ (s₃ ++ rest)) := by simp
    rw [e, Mode.Ok.blank40 ih1 fun hn => (hd hn).append _]
    exact read_list rfl (Reads.at ih2 (h3.append rest)) (ih3 rest)
  | @tailDot s₁ n s₂ d s₃ w _ _ _ hsd hd hw ih1 ih2 ih3 =>
    intro rest
    have e : s₁ ++ 46 :: (s₂ ++ (s₃ ++ (w ++ [41]))) ++ rest =
        s₁ ++ ([46] ++ (s₂ ++ s₃ ++ (w ++ 41 :: rest))) := by simp
    have hws : StartsDelimited (w ++ 41 :: rest) := by
      cases w with
      | nil => exact startsDelimited_close rest
      | cons b w =>
        refine ⟨b, w ++ 41 :: rest, rfl, ?_⟩
        have := hw b (by simp)
        simp [isWhite] at this
        simp [isSpecial]
        omega
    rw [e, Mode.Ok.blank40 ih1 nofun]
    obtain ⟨p', ends', e'⟩ := read_ascii_token (b := 46) (bs := []) (by decide)
      (hsd.append (w ++ 41 :: rest)).delimited
    have ep : p' = { rest := s₂ ++ s₃ ++ (w ++ 41 :: rest) } := by
      apply ends'.2
      obtain ⟨b, bs, eb, -⟩ := hsd
      rw [eb]
      simp
    rw [ep, if_pos rfl] at e'
    rw [read_list_dot rfl e', readTail, List.append_assoc, Mode.Ok.blank ih2 fun hn => (hd hn).append _,
      Reads.at ih3 hws]
    have := takeUntil_ascii (stop := fun c => decide (c = 41)) (bs := w) (e := 41) (by decide)
      (by decide) (by
        intro b hb
        have := hw b hb
        simp [isWhite] at this
        simp
        omega) rest
    simp [this]

end Meevax.Text
