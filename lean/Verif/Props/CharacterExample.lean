import Verif.Props.Character

/-!
Examples for C83: some lines of the file.
-/

namespace Meevax.Unicode

open Spec

/-- `0009;<control>;Cc;0;S;;;;;N;CHARACTER TABULATION;;;;` -/
def e0009 : Entry :=
  ⟨0x0009, "<control>".toList, .Cc, "0".toList, "S".toList, "".toList, none, none, "".toList, "N".toList, "CHARACTER TABULATION".toList, "".toList, none, none,
    "".toList⟩

/-- `0020;SPACE;Zs;0;WS;;;;;N;;;;;` -/
def e0020 : Entry :=
  ⟨0x0020, "SPACE".toList, .Zs, "0".toList, "WS".toList, "".toList, none, none, "".toList, "N".toList, "".toList, "".toList, none, none,
    "".toList⟩

/-- `0035;DIGIT FIVE;Nd;0;EN;;5;5;5;N;;;;;` -/
def e0035 : Entry :=
  ⟨0x0035, "DIGIT FIVE".toList, .Nd, "0".toList, "EN".toList, "".toList, (some 5), (some 5), "5".toList, "N".toList, "".toList, "".toList, none, none,
    "".toList⟩

/-- `0041;LATIN CAPITAL LETTER A;Lu;0;L;;;;;N;;;;0061;` -/
def e0041 : Entry :=
  ⟨0x0041, "LATIN CAPITAL LETTER A".toList, .Lu, "0".toList, "L".toList, "".toList, none, none, "".toList, "N".toList, "".toList, "".toList, none, (some 0x0061),
    "".toList⟩

/-- `0061;LATIN SMALL LETTER A;Ll;0;L;;;;;N;;;0041;;0041` -/
def e0061 : Entry :=
  ⟨0x0061, "LATIN SMALL LETTER A".toList, .Ll, "0".toList, "L".toList, "".toList, none, none, "".toList, "N".toList, "".toList, "".toList, (some 0x0041), none,
    "0041".toList⟩

/-- `00B2;SUPERSCRIPT TWO;No;0;EN;<super> 0032;;2;2;N;SUPERSCRIPT DIGIT TWO;;;;` -/
def e00B2 : Entry :=
  ⟨0x00B2, "SUPERSCRIPT TWO".toList, .No, "0".toList, "EN".toList, "<super> 0032".toList, none, (some 2), "2".toList, "N".toList, "SUPERSCRIPT DIGIT TWO".toList, "".toList, none, none,
    "".toList⟩

/-- `00DF;LATIN SMALL LETTER SHARP S;Ll;0;L;;;;;N;;;;;` -/
def e00DF : Entry :=
  ⟨0x00DF, "LATIN SMALL LETTER SHARP S".toList, .Ll, "0".toList, "L".toList, "".toList, none, none, "".toList, "N".toList, "".toList, "".toList, none, none,
    "".toList⟩

/-- `03A3;GREEK CAPITAL LETTER SIGMA;Lu;0;L;;;;;N;;;;03C3;` -/
def e03A3 : Entry :=
  ⟨0x03A3, "GREEK CAPITAL LETTER SIGMA".toList, .Lu, "0".toList, "L".toList, "".toList, none, none, "".toList, "N".toList, "".toList, "".toList, none, (some 0x03C3),
    "".toList⟩

/-- `03C2;GREEK SMALL LETTER FINAL SIGMA;Ll;0;L;;;;;N;;;03A3;;03A3` -/
def e03C2 : Entry :=
  ⟨0x03C2, "GREEK SMALL LETTER FINAL SIGMA".toList, .Ll, "0".toList, "L".toList, "".toList, none, none, "".toList, "N".toList, "".toList, "".toList, (some 0x03A3), none,
    "03A3".toList⟩

/-- `03C3;GREEK SMALL LETTER SIGMA;Ll;0;L;;;;;N;;;03A3;;03A3` -/
def e03C3 : Entry :=
  ⟨0x03C3, "GREEK SMALL LETTER SIGMA".toList, .Ll, "0".toList, "L".toList, "".toList, none, none, "".toList, "N".toList, "".toList, "".toList, (some 0x03A3), none,
    "03A3".toList⟩

/-- `2028;LINE SEPARATOR;Zl;0;WS;;;;;N;;;;;` -/
def e2028 : Entry :=
  ⟨0x2028, "LINE SEPARATOR".toList, .Zl, "0".toList, "WS".toList, "".toList, none, none, "".toList, "N".toList, "".toList, "".toList, none, none,
    "".toList⟩

/-- `2167;ROMAN NUMERAL EIGHT;Nl;0;L;<compat> 0056 0049 0049 0049;;;8;N;;;;2177;` -/
def e2167 : Entry :=
  ⟨0x2167, "ROMAN NUMERAL EIGHT".toList, .Nl, "0".toList, "L".toList, "<compat> 0056 0049 0049 0049".toList, none, none, "8".toList, "N".toList, "".toList, "".toList, none, (some 0x2177),
    "".toList⟩

/-- `4E00;<CJK Ideograph, First>;Lo;0;L;;;;;N;;;;;` -/
def e4E00 : Entry :=
  ⟨0x4E00, "<CJK Ideograph, First>".toList, .Lo, "0".toList, "L".toList, "".toList, none, none, "".toList, "N".toList, "".toList, "".toList, none, none,
    "".toList⟩

/-- `9FFF;<CJK Ideograph, Last>;Lo;0;L;;;;;N;;;;;` -/
def e9FFF : Entry :=
  ⟨0x9FFF, "<CJK Ideograph, Last>".toList, .Lo, "0".toList, "L".toList, "".toList, none, none, "".toList, "N".toList, "".toList, "".toList, none, none,
    "".toList⟩

/-- Some lines of UnicodeData.txt. -/
def sample : List Item :=
  [.single e0009, .single e0020, .single e0035, .single e0041, .single e0061, .single e00B2, .single e00DF, .single e03A3, .single e03C2, .single e03C3, .single e2028, .single e2167,
    .range e4E00 e9FFF]

/-- They are the lines of the file. -/
example : text sample = [
    "0009;<control>;Cc;0;S;;;;;N;CHARACTER TABULATION;;;;".toList,
    "0020;SPACE;Zs;0;WS;;;;;N;;;;;".toList,
    "0035;DIGIT FIVE;Nd;0;EN;;5;5;5;N;;;;;".toList,
    "0041;LATIN CAPITAL LETTER A;Lu;0;L;;;;;N;;;;0061;".toList,
    "0061;LATIN SMALL LETTER A;Ll;0;L;;;;;N;;;0041;;0041".toList,
    "00B2;SUPERSCRIPT TWO;No;0;EN;<super> 0032;;2;2;N;SUPERSCRIPT DIGIT TWO;;;;".toList,
    "00DF;LATIN SMALL LETTER SHARP S;Ll;0;L;;;;;N;;;;;".toList,
    "03A3;GREEK CAPITAL LETTER SIGMA;Lu;0;L;;;;;N;;;;03C3;".toList,
    "03C2;GREEK SMALL LETTER FINAL SIGMA;Ll;0;L;;;;;N;;;03A3;;03A3".toList,
    "03C3;GREEK SMALL LETTER SIGMA;Ll;0;L;;;;;N;;;03A3;;03A3".toList,
    "2028;LINE SEPARATOR;Zl;0;WS;;;;;N;;;;;".toList,
    "2167;ROMAN NUMERAL EIGHT;Nl;0;L;<compat> 0056 0049 0049 0049;;;8;N;;;;2177;".toList,
    "4E00;<CJK Ideograph, First>;Lo;0;L;;;;;N;;;;;".toList,
    "9FFF;<CJK Ideograph, Last>;Lo;0;L;;;;;N;;;;;".toList] := by decide +kernel

theorem e0009_ok : e0009.Ok :=
  ⟨by decide +kernel, (fun _ h => by cases h), (fun _ h => by cases h), by decide +kernel, by decide +kernel⟩

theorem e0020_ok : e0020.Ok :=
  ⟨by decide +kernel, (fun _ h => by cases h), (fun _ h => by cases h), by decide +kernel, by decide +kernel⟩

theorem e0035_ok : e0035.Ok :=
  ⟨by decide +kernel, (fun _ h => by cases h; decide), (fun _ h => h), by decide +kernel, by decide +kernel⟩

theorem e0041_ok : e0041.Ok :=
  ⟨by decide +kernel, (fun _ h => by cases h), (fun _ h => by cases h), by decide +kernel, by decide +kernel⟩

theorem e0061_ok : e0061.Ok :=
  ⟨by decide +kernel, (fun _ h => by cases h), (fun _ h => by cases h), by decide +kernel, by decide +kernel⟩

theorem e00B2_ok : e00B2.Ok :=
  ⟨by decide +kernel, (fun _ h => by cases h; decide), (fun _ h => by cases h), by decide +kernel, by decide +kernel⟩

theorem e00DF_ok : e00DF.Ok :=
  ⟨by decide +kernel, (fun _ h => by cases h), (fun _ h => by cases h), by decide +kernel, by decide +kernel⟩

theorem e03A3_ok : e03A3.Ok :=
  ⟨by decide +kernel, (fun _ h => by cases h), (fun _ h => by cases h), by decide +kernel, by decide +kernel⟩

theorem e03C2_ok : e03C2.Ok :=
  ⟨by decide +kernel, (fun _ h => by cases h), (fun _ h => by cases h), by decide +kernel, by decide +kernel⟩

theorem e03C3_ok : e03C3.Ok :=
  ⟨by decide +kernel, (fun _ h => by cases h), (fun _ h => by cases h), by decide +kernel, by decide +kernel⟩

theorem e2028_ok : e2028.Ok :=
  ⟨by decide +kernel, (fun _ h => by cases h), (fun _ h => by cases h), by decide +kernel, by decide +kernel⟩

theorem e2167_ok : e2167.Ok :=
  ⟨by decide +kernel, (fun _ h => by cases h), (fun _ h => by cases h), by decide +kernel, by decide +kernel⟩

theorem e4E00_ok : e4E00.Ok :=
  ⟨by decide +kernel, (fun _ h => by cases h), (fun _ h => by cases h), by decide +kernel, by decide +kernel⟩

theorem e9FFF_ok : e9FFF.Ok :=
  ⟨by decide +kernel, (fun _ h => by cases h), (fun _ h => by cases h), by decide +kernel, by decide +kernel⟩

theorem sample_data : Data sample := by
  constructor
  · intro i hi
    simp only [sample, List.mem_cons, List.not_mem_nil, or_false] at hi
    rcases hi with rfl | rfl | rfl | rfl | rfl | rfl | rfl | rfl | rfl | rfl | rfl | rfl | rfl
    · exact e0009_ok
    · exact e0020_ok
    · exact e0035_ok
    · exact e0041_ok
    · exact e0061_ok
    · exact e00B2_ok
    · exact e00DF_ok
    · exact e03A3_ok
    · exact e03C2_ok
    · exact e03C3_ok
    · exact e2028_ok
    · exact e2167_ok
    · exact ⟨e4E00_ok, e9FFF_ok, by decide, rfl, rfl, rfl, rfl, rfl, rfl, rfl⟩
  · decide +kernel

/-- `a` is not in a range, and its upper case is `A`. -/
example : (∀ i ∈ sample, ¬i.inside 0x61) ∧ property (text sample) 0x61 = .Ll ∧ upcase (text sample) 0x61 = 0x41 ∧
    charLowerCase (text sample) 0x61 = true := by
  have hn : ∀ i ∈ sample, ¬i.inside 0x61 := by
    intro i hi
    simp only [sample, List.mem_cons, List.not_mem_nil, or_false] at hi
    rcases hi with rfl | rfl | rfl | rfl | rfl | rfl | rfl | rfl | rfl | rfl | rfl | rfl | rfl <;> simp [Item.inside, e4E00]
  have hc : HasCategory sample 0x61 .Ll := Or.inl ⟨.single e0061, by simp [sample], rfl, rfl⟩
  exact ⟨hn, (C83_category_partial sample_data hn .Ll).2 hc,
    (C83_case sample_data 0x61 0x41).1.2 (Or.inl ⟨.single e0061, by simp [sample], rfl, rfl⟩),
    ((C83_predicates_partial sample_data hn hc).2.2.2.1 fun _ => False).2 (fun h => h) (Or.inl rfl)⟩

/-- `5` is a digit. -/
example : digitValue (text sample) 0x35 = some 5 :=
  (C83_digit_value_partial sample_data (c := 0x35) (by
    have h5 : HasCategory sample 0x35 .Nd := Or.inl ⟨.single e0035, by simp [sample], rfl, rfl⟩
    rintro (⟨i, hi, hic, hv⟩ | ⟨hn, _⟩)
    · rw [covers_unique sample_data hi (by simp [sample] : Item.single e0035 ∈ sample) hic rfl] at hv
      cases hv
    · exact hn ⟨.single e0035, by simp [sample], rfl⟩) (some 5)).2 (Or.inl ⟨.single e0035, by simp [sample], rfl, rfl⟩)

/-- U+4E01 (the numeral seven is U+4E03) is not alphabetic. -/
example : charAlphabetic (text sample) 0x4E01 = false :=
  (C83_range_fails sample_data (i := .range e4E00 e9FFF) (by simp [sample]) (c := 0x4E01) ⟨by decide, by decide⟩ rfl).2.2

/-- The other witnesses. -/
example : charWhitespace (text sample) 9 = false ∧ charWhitespace (text sample) 0x2028 = false ∧
    charAlphabetic (text sample) 0x2167 = false ∧ digitValue (text sample) 0xB2 = some 2 ∧
    stringUpcase (text sample) [0xDF] = [0xDF] ∧ charCiEq (text sample) [0x3C2, 0x3C3] = false :=
  ⟨(C83_whitespace_fails sample_data (e := e0009) (by simp [sample]) (Or.inr (Or.inr ⟨rfl, by decide, by decide⟩))).2,
    (C83_whitespace_fails sample_data (e := e2028) (by simp [sample]) (Or.inl rfl)).2,
    (C83_alphabetic_fails sample_data (e := e2167) (by simp [sample]) rfl fun _ => False).2,
    (C83_digit_value_fails sample_data (e := e00B2) (by simp [sample]) rfl rfl).1,
    C83_sharp_s_fails sample_data (e := e00DF) (by simp [sample]) rfl rfl,
    (C83_fold_fails sample_data (e := e03C2) (f := e03C3) (by simp [sample]) (by simp [sample]) rfl rfl rfl rfl
      (by decide)).2⟩

end Meevax.Unicode
