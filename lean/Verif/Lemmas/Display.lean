import Verif.Lemmas.Utf8
import Verif.Model.Display
import Verif.Spec.Display

namespace Meevax.Text

theorem exists_listOf : (d : Datum) → ∃ xs e, d = listOf xs e ∧ ∀ a b, e ≠ .cons a b
  | .cons a d => by
    obtain ⟨xs, e, h, he⟩ := exists_listOf d
    exact ⟨a :: xs, e, by rw [h]; rfl, he⟩
  | .null => ⟨[], _, rfl, by simp⟩
  | .bool _ => ⟨[], _, rfl, by simp⟩
  | .num _ => ⟨[], _, rfl, by simp⟩
  | .char _ => ⟨[], _, rfl, by simp⟩
  | .string _ => ⟨[], _, rfl, by simp⟩
  | .symbol _ => ⟨[], _, rfl, by simp⟩
  | .vector _ => ⟨[], _, rfl, by simp⟩
  | .u8vector _ => ⟨[], _, rfl, by simp⟩
  | .eof => ⟨[], _, rfl, by simp⟩

theorem listOf_end_size (xs : List Datum) (e : Datum) : sizeOf e ≤ sizeOf (listOf xs e) := by
  induction xs with
  | nil => exact Nat.le_refl _
  | cons x xs ih =>
    show _ ≤ sizeOf (Datum.cons x (listOf xs e))
    simp
    omega

theorem listOf_mem_size {xs : List Datum} {e x : Datum} (h : x ∈ xs) : sizeOf x < sizeOf (listOf xs e) := by
  induction xs with
  | nil => simp at h
  | cons y xs ih =>
    show _ < sizeOf (Datum.cons y (listOf xs e))
    rcases List.mem_cons.1 h with h | h
    · rw [h]
      simp
      omega
    · have := ih h
      simp
      omega

theorem inside_mem {xs : List Datum} {e x p : Datum} (h : x ∈ xs) (hp : Inside p x) : Inside p (listOf xs e) := by
  induction xs with
  | nil => simp at h
  | cons y xs ih =>
    rcases List.mem_cons.1 h with h | h
    · subst h
      exact .car hp
    · exact .cdr (ih h)

theorem inside_end {xs : List Datum} {e p : Datum} (hp : Inside p e) : Inside p (listOf xs e) := by
  induction xs with
  | nil => exact hp
  | cons y xs ih => exact .cdr ih

theorem inside_listOf {xs : List Datum} {e p : Datum} (h : Inside p (listOf xs e)) :
    (∃ a d, p = .cons a d) ∨ (∃ x ∈ xs, Inside p x) ∨ Inside p e := by
  induction xs with
  | nil => exact .inr (.inr h)
  | cons y xs ih =>
    cases h with
    | self => exact .inl ⟨_, _, rfl⟩
    | car h => exact .inr (.inl ⟨y, List.mem_cons_self, h⟩)
    | cdr h =>
      rcases ih h with h | ⟨x, hx, h⟩ | h
      · exact .inl h
      · exact .inr (.inl ⟨x, List.mem_cons_of_mem _ hx, h⟩)
      · exact .inr (.inr h)

theorem listOf_inj {xs ys : List Datum} {e f : Datum} (h : listOf xs e = listOf ys f)
    (he : ∀ a b, e ≠ .cons a b) (hf : ∀ a b, f ≠ .cons a b) : xs = ys ∧ e = f := by
  induction xs generalizing ys with
  | nil =>
    cases ys with
    | nil => exact ⟨rfl, h⟩
    | cons y ys => exact absurd h (he _ _)
  | cons x xs ih =>
    cases ys with
    | nil => exact absurd h.symm (hf _ _)
    | cons y ys =>
      injection h with h1 h2
      obtain ⟨h3, h4⟩ := ih h2
      exact ⟨by rw [h1, h3], h4⟩

/-- The end of a list as `write` puts it on a port. -/
def ending (high : Nat → Bool) (e : Datum) : Option (List Byte) :=
  match e with
  | .null => some [41]
  | e => do
    let s ← write high e
    some (ascii " . " ++ s ++ [41])

theorem writeTail_listOf {high : Nat → Bool} {e : Datum} (he : ∀ a b, e ≠ .cons a b) :
    {xs : List Datum} → {t : List Byte} → (h : writeTail high (listOf xs e) = some t) →
    ∃ ss s, List.Forall₂ (fun x s => write high x = some s) xs ss ∧ ending high e = some s ∧
      t = ss.flatMap (32 :: ·) ++ s
  | [], t, h => by
    refine ⟨[], t, .nil, ?_, rfl⟩
    rw [← h]
    show _ = writeTail high e
    cases e <;> first | rfl | exact absurd rfl (he _ _) | (simp [ending, writeTail])
  | x :: xs, t, h => by
    change writeTail high (.cons x (listOf xs e)) = _ at h
    rw [writeTail] at h
    cases hx : write high x with
    | none => rw [hx] at h; simp at h
    | some u =>
      cases ht : writeTail high (listOf xs e) with
      | none => rw [hx, ht] at h; simp at h
      | some v =>
        rw [hx, ht] at h
        simp at h
        obtain ⟨ss, s, h1, h2, h3⟩ := writeTail_listOf he ht
        exact ⟨u :: ss, s, .cons hx h1, h2, by rw [← h, h3]; simp⟩

theorem write_cons {high : Nat → Bool} {x : Datum} {xs : List Datum} {e : Datum} (he : ∀ a b, e ≠ .cons a b)
    {t : List Byte} (h : write high (listOf (x :: xs) e) = some t) :
    ∃ ss s, List.Forall₂ (fun x s => write high x = some s) (x :: xs) ss ∧ ending high e = some s ∧
      t = [40] ++ spaced ss ++ s := by
  change write high (.cons x (listOf xs e)) = _ at h
  rw [write] at h
  cases hx : write high x with
  | none => rw [hx] at h; simp at h
  | some u =>
    cases ht : writeTail high (listOf xs e) with
    | none => rw [hx, ht] at h; simp at h
    | some v =>
      rw [hx, ht] at h
      simp at h
      obtain ⟨ss, s, h1, h2, h3⟩ := writeTail_listOf he ht
      exact ⟨u :: ss, s, .cons hx h1, h2, by rw [← h, h3]; simp [spaced]⟩

theorem writeElements_spaced {high : Nat → Bool} : {xs : List Datum} → {t : List Byte} →
    (h : writeElements high xs = some t) →
    ∃ ss, List.Forall₂ (fun x s => write high x = some s) xs ss ∧ t = spaced ss
  | [], t, h => by
    simp [writeElements] at h
    exact ⟨[], .nil, by rw [h]; rfl⟩
  | [x], t, h => by
    rw [writeElements] at h
    exact ⟨[t], .cons h .nil, by simp [spaced]⟩
  | x :: y :: xs, t, h => by
    rw [writeElements] at h
    · cases hx : write high x with
      | none => rw [hx] at h; simp at h
      | some u =>
        cases ht : writeElements high (y :: xs) with
        | none => rw [hx, ht] at h; simp at h
        | some v =>
          rw [hx, ht] at h
          simp at h
          obtain ⟨ss, h1, h2⟩ := writeElements_spaced ht
          refine ⟨u :: ss, .cons hx h1, ?_⟩
          rw [← h, h2]
          cases h1
          simp [spaced]
    · simp

theorem writeBytes_spaced : (bs : List Byte) → writeBytes bs = spaced (bs.map fun b => natDigits 10 b.toNat)
  | [] => rfl
  | [b] => by simp [writeBytes, spaced]
  | b :: c :: bs => by
    rw [writeBytes]
    · rw [writeBytes_spaced (c :: bs)]
      simp [spaced]
    · simp

/-! ### Data that are written as they are to be shown -/

theorem forall₂_shown {high : Nat → Bool} {xs : List Datum} {ss : List (List Byte)}
    (h : List.Forall₂ (fun x s => write high x = some s) xs ss)
    (hs : ∀ x ∈ xs, ∀ s, write high x = some s → Shown x s) : List.Forall₂ Shown xs ss := by
  induction h with
  | nil => exact .nil
  | cons h _ ih =>
    exact .cons (hs _ List.mem_cons_self _ h) (ih fun x hx => hs x (List.mem_cons_of_mem _ hx))

theorem write_shown {high : Nat → Bool} : (n : Nat) → (d : Datum) → sizeOf d ≤ n →
    (∀ p, Inside p d → ¬ Escaped p) → ∀ s, write high d = some s → Shown d s
  | 0, d, hn, _, _, _ => by cases d <;> simp at hn
  | n + 1, d, hn, hp, s, h => by
    match d with
    | .null => simp [write] at h; rw [← h]; exact .null
    | .bool true => simp [write] at h; rw [← h]; exact .true
    | .bool false => simp [write] at h; rw [← h]; exact .false
    | .num x => rw [write] at h; exact .num h
    | .char c => exact absurd trivial (hp _ (.self _))
    | .string cs => exact absurd trivial (hp _ (.self _))
    | .symbol name =>
      have := hp _ (.self _)
      rw [write, writeSymbol] at h
      by_cases h0 : name = []
      · exact absurd (.inl h0) this
      · rw [if_neg h0, if_neg] at h
        · injection h with h
          rw [← h]
          exact .symbol name
        · intro hb
          rw [List.any_eq_true] at hb
          obtain ⟨b, hb, h1⟩ := hb
          refine this (.inr ⟨b, hb, ?_⟩)
          simpa using h1
    | .u8vector bs =>
      simp [write] at h
      rw [← h, writeBytes_spaced]
      have := Shown.bytes bs
      simpa [ascii] using this
    | .eof => simp [write] at h
    | .vector xs =>
      rw [write] at h
      cases hx : writeElements high xs with
      | none => rw [hx] at h; simp at h
      | some t =>
        rw [hx] at h
        simp at h
        obtain ⟨ss, h1, h2⟩ := writeElements_spaced hx
        have := Shown.vector (forall₂_shown h1 fun x hx => write_shown n x (by
          have := List.sizeOf_lt_of_mem hx
          simp at hn
          omega) fun p hpx => hp p (.element hx hpx))
        rw [← h, h2]
        simpa [ascii] using this
    | .cons a d =>
      obtain ⟨xs, e, hd, he⟩ := exists_listOf d
      have hc : Datum.cons a d = listOf (a :: xs) e := by rw [hd]; rfl
      rw [hc] at h hp hn ⊢
      obtain ⟨ss, u, h1, h2, h3⟩ := write_cons he h
      have hs := forall₂_shown h1 fun x hx => write_shown n x (by
        have := listOf_mem_size (e := e) hx
        omega) fun p hpx => hp p (inside_mem hx hpx)
      by_cases hnull : e = .null
      · subst hnull
        simp [ending] at h2
        rw [h3, ← h2]
        have := Shown.list hs
        simpa [ascii] using this
      · have h4 : ending high e = (do
            let s ← write high e
            some (ascii " . " ++ s ++ [41])) := by
          cases e <;> first | rfl | exact absurd rfl hnull
        rw [h4] at h2
        cases hw : write high e with
        | none => rw [hw] at h2; simp at h2
        | some v =>
          rw [hw] at h2
          simp at h2
          have hv := write_shown n e (by
            have := listOf_end_size xs e
            change sizeOf (Datum.cons a (listOf xs e)) ≤ _ at hn
            simp at hn
            omega) (fun p hpe => hp p (inside_end hpe)) v hw
          have := Shown.dotted hs hnull he hv
          rw [h3, ← h2]
          simpa [ascii] using this

/-! ### Data that are written otherwise -/

theorem natDigits_pos (radix n : Nat) (h : 2 ≤ radix) : 1 ≤ (natDigits radix n).length := by
  rw [natDigits.eq_def, dif_neg (by omega)]
  split <;> simp

theorem encode_length (c : Char) : (String.utf8EncodeChar c).length ≤ 4 := by
  have := Char.utf8Size_le_four c
  simpa using this

theorem encode_length_ascii {c : Char} (h : c.toNat ≤ 0x7F) : (String.utf8EncodeChar c).length = 1 := by
  rw [String.utf8EncodeChar]
  simp [h]

theorem putChar_length {high : Nat → Bool} (hh : ∀ c, 255 < c → high c = false) (c : Char) :
    (String.utf8EncodeChar c).length ≤ (putChar high c.toNat).length := by
  rw [putChar]
  by_cases hp : isPrint high c.toNat = true
  · rw [if_pos hp]
    have h7 : c.toNat ≤ 0x7F := by
      rw [isPrint] at hp
      split at hp
      · simp at hp
        omega
      · rename_i h
        rw [hh _ (by omega)] at hp
        exact absurd hp (by simp)
    rw [encode_length_ascii h7]
    repeat' split
    all_goals first | decide | simp
  · rw [if_neg hp]
    have h1 := encode_length c
    have h2 := natDigits_pos 16 c.toNat (by omega)
    simp only [List.length_append, upperHex, List.length_map]
    have h3 : (ascii "\\x").length = 2 := by decide
    have h4 : (ascii ";").length = 1 := by decide
    omega

theorem putChars_length {high : Nat → Bool} (hh : ∀ c, 255 < c → high c = false) (cs : List Char) :
    (encode cs).length ≤ ((cs.map Char.toNat).flatMap (putChar high)).length := by
  induction cs with
  | nil => simp
  | cons c cs ih =>
    simp only [List.flatMap_cons, List.map_cons, List.length_append]
    have := putChar_length hh c
    change (cs.flatMap String.utf8EncodeChar).length ≤ _ at ih
    omega

theorem writeChar_length (c : Char) : (String.utf8EncodeChar c).length < (writeChar c.toNat).length := by
  rw [writeChar]
  have h2 : (ascii "#\\").length = 2 := by decide
  rw [List.length_append, h2]
  by_cases h : c.toNat ≤ 0x7F
  · rw [encode_length_ascii h]
    omega
  · have h0 : c ≠ '\x00' := by
      intro h0
      subst h0
      exact h (by decide)
    rw [if_neg (by omega), if_neg (by omega), if_neg (by omega), if_neg (by omega), if_neg (by omega),
      if_neg (by omega), if_neg (by omega), if_neg (by omega), if_neg (by omega), utf8_char h0]
    omega

/-- A datum is not written with fewer bytes than it is to be shown with, and with more if there is something in
it that is escaped. -/
def Longer (high : Nat → Bool) (d : Datum) : Prop :=
  ∀ s t, write high d = some s → Shown d t →
    t.length ≤ s.length ∧ ((∃ p, Inside p d ∧ Escaped p) → t.length < s.length)

theorem forall₂_longer {high : Nat → Bool} {xs : List Datum} {ss ts : List (List Byte)}
    (hs : List.Forall₂ (fun x s => write high x = some s) xs ss) (ht : List.Forall₂ Shown xs ts)
    (hl : ∀ x ∈ xs, Longer high x) :
    (ts.flatMap (32 :: ·)).length ≤ (ss.flatMap (32 :: ·)).length ∧
      ((∃ x ∈ xs, ∃ p, Inside p x ∧ Escaped p) →
        (ts.flatMap (32 :: ·)).length < (ss.flatMap (32 :: ·)).length) := by
  induction hs generalizing ts with
  | nil =>
    cases ht
    exact ⟨Nat.le_refl _, fun ⟨x, hx, _⟩ => absurd hx List.not_mem_nil⟩
  | cons h hs ih =>
    cases ht with
    | cons h' ht =>
      obtain ⟨h1, h2⟩ := hl _ List.mem_cons_self _ _ h h'
      obtain ⟨h3, h4⟩ := ih ht fun x hx => hl x (List.mem_cons_of_mem _ hx)
      simp only [List.flatMap_cons, List.length_append, List.length_cons]
      refine ⟨by omega, fun ⟨x, hx, hp⟩ => ?_⟩
      rcases List.mem_cons.1 hx with hx | hx
      · subst hx
        have := h2 hp
        omega
      · have := h4 ⟨x, hx, hp⟩
        omega

theorem spaced_length {ss : List (List Byte)} (h : ss ≠ []) :
    (spaced ss).length + 1 = (ss.flatMap (32 :: ·)).length := by
  cases ss with
  | nil => exact absurd rfl h
  | cons s ss =>
    simp [spaced]

theorem spaced_longer {high : Nat → Bool} {xs : List Datum} {ss ts : List (List Byte)}
    (hs : List.Forall₂ (fun x s => write high x = some s) xs ss) (ht : List.Forall₂ Shown xs ts)
    (hl : ∀ x ∈ xs, Longer high x) :
    (spaced ts).length ≤ (spaced ss).length ∧
      ((∃ x ∈ xs, ∃ p, Inside p x ∧ Escaped p) → (spaced ts).length < (spaced ss).length) := by
  obtain ⟨h1, h2⟩ := forall₂_longer hs ht hl
  cases hs with
  | nil =>
    cases ht
    exact ⟨Nat.le_refl _, fun ⟨x, hx, _⟩ => absurd hx List.not_mem_nil⟩
  | cons h hs =>
    cases ht with
    | cons h' ht =>
      rw [← spaced_length (by simp), ← spaced_length (by simp)] at h1 h2
      exact ⟨by omega, fun h => by have := h2 h; omega⟩

theorem shown_listOf {x : Datum} {xs : List Datum} {e : Datum} (he : ∀ a b, e ≠ .cons a b) {t : List Byte}
    (h : Shown (listOf (x :: xs) e) t) :
    ∃ ts, List.Forall₂ Shown (x :: xs) ts ∧
      (e = .null ∧ t = ascii "(" ++ spaced ts ++ ascii ")" ∨
        e ≠ .null ∧ ∃ u, Shown e u ∧ t = ascii "(" ++ spaced ts ++ ascii " . " ++ u ++ ascii ")") := by
  generalize hd : listOf (x :: xs) e = d at h
  cases h with
  | list h =>
    obtain ⟨h1, h2⟩ := listOf_inj hd he (by simp)
    injection h1 with h1 h3
    subst h1 h2 h3
    exact ⟨_, h, .inl ⟨rfl, rfl⟩⟩
  | dotted h hn hc hs =>
    obtain ⟨h1, h2⟩ := listOf_inj hd he hc
    injection h1 with h1 h3
    subst h1 h2 h3
    exact ⟨_, h, .inr ⟨hn, _, hs, rfl⟩⟩
  | _ => simp [listOf] at hd

theorem ending_dotted {high : Nat → Bool} {e : Datum} (hn : e ≠ .null) :
    ending high e = (write high e).bind fun s => some (ascii " . " ++ s ++ [41]) := by
  cases e <;> first | rfl | exact absurd rfl hn

theorem longer {high : Nat → Bool} (hh : ∀ c, 255 < c → high c = false) : (n : Nat) → (d : Datum) → sizeOf d ≤ n →
    (∀ name, Inside (.symbol name) d → ∃ cs, name = encode cs) → Longer high d
  | 0, d, hn, _ => by cases d <;> simp at hn
  | n + 1, d, hn, hp => by
    intro s t h hs
    match d with
    | .null =>
      simp [write] at h
      cases hs
      subst h
      exact ⟨Nat.le_refl _, fun ⟨p, hp, he⟩ => by cases hp; exact absurd he id⟩
    | .bool b =>
      simp [write] at h
      subst h
      cases hs <;> exact ⟨Nat.le_refl _, fun ⟨p, hp, he⟩ => by cases hp; exact absurd he id⟩
    | .num x =>
      rw [write] at h
      cases hs with
      | num h' =>
        rw [h] at h'
        injection h' with h'
        subst h'
        exact ⟨Nat.le_refl _, fun ⟨p, hp, he⟩ => by cases hp; exact absurd he id⟩
    | .char c =>
      simp [write] at h
      cases hs with
      | char c =>
        subst h
        have := writeChar_length c
        exact ⟨by omega, fun _ => this⟩
    | .string cs =>
      simp [write] at h
      cases hs with
      | string cs =>
        subst h
        have := putChars_length hh cs
        simp only [writeString, List.length_append, List.length_singleton]
        exact ⟨by omega, fun _ => by omega⟩
    | .symbol name =>
      have htn : t = name := by cases hs; rfl
      rw [htn]
      rw [write, writeSymbol] at h
      by_cases h0 : name = []
      · rw [if_pos h0] at h
        injection h with h
        rw [← h, h0]
        exact ⟨by simp, fun _ => by decide⟩
      · rw [if_neg h0] at h
        by_cases hb : (name.any fun b => isSpecial b.toNat || b = 0xFF) = true
        · obtain ⟨cs, hcs⟩ := hp name (.self _)
          rw [if_pos hb] at h
          have h5 : stringOf name = some (cs.map Char.toNat) := by
            rw [stringOf, hcs, decode_chars]
          rw [h5] at h
          have h6 : [35] ++ writeString high (cs.map Char.toNat) = s := by simpa using h
          subst h6
          have := putChars_length hh cs
          rw [hcs]
          simp only [writeString, List.length_append, List.length_singleton]
          exact ⟨by omega, fun _ => by omega⟩
        · rw [if_neg hb] at h
          injection h with h
          subst h
          refine ⟨Nat.le_refl _, fun ⟨p, hp, he⟩ => ?_⟩
          cases hp
          rcases he with he | ⟨b, hb', he⟩
          · exact absurd he h0
          · refine absurd (List.any_eq_true.2 ⟨b, hb', ?_⟩) hb
            simpa using he
    | .u8vector bs =>
      simp [write] at h
      cases hs
      subst h
      rw [writeBytes_spaced]
      refine ⟨by simp [ascii], fun ⟨p, hp, he⟩ => by cases hp; exact absurd he id⟩
    | .eof => simp [write] at h
    | .vector xs =>
      rw [write] at h
      cases hx : writeElements high xs with
      | none => rw [hx] at h; simp at h
      | some v =>
        rw [hx] at h
        simp at h
        obtain ⟨ss, h1, h2⟩ := writeElements_spaced hx
        cases hs with
        | vector ht =>
          obtain ⟨h3, h4⟩ := spaced_longer h1 ht fun x hx => longer hh n x (by
            have := List.sizeOf_lt_of_mem hx
            simp at hn
            omega) fun name hi => hp name (.element hx hi)
          have h7 : (ascii "#(").length = 2 := by decide
          have h8 : (ascii ")").length = 1 := by decide
          rw [← h, h2]
          simp only [List.length_append, List.length_cons, List.length_nil, h7, h8]
          refine ⟨by omega, fun ⟨p, hi, he⟩ => ?_⟩
          cases hi with
          | self => exact absurd he id
          | element hx hi =>
            have := h4 ⟨_, hx, p, hi, he⟩
            omega
    | .cons a d =>
      obtain ⟨xs, e, hd, he⟩ := exists_listOf d
      have hc : Datum.cons a d = listOf (a :: xs) e := by rw [hd]; rfl
      rw [hc] at h hp hn hs ⊢
      obtain ⟨ss, u, h1, h2, h3⟩ := write_cons he h
      obtain ⟨ts, h4, h5⟩ := shown_listOf he hs
      obtain ⟨h6, h7⟩ := spaced_longer h1 h4 fun x hx => longer hh n x (by
        have := listOf_mem_size (e := e) hx
        omega) fun p hpx => hp p (inside_mem hx hpx)
      have l1 : (ascii "(").length = 1 := by decide
      have l2 : (ascii ")").length = 1 := by decide
      have l3 : (ascii " . ").length = 3 := by decide
      rcases h5 with ⟨rfl, rfl⟩ | ⟨hnull, v, hv, rfl⟩
      · simp [ending] at h2
        subst h2 h3
        simp only [List.length_append, List.length_cons, List.length_nil, l1, l2]
        refine ⟨by omega, fun ⟨p, hi, he⟩ => ?_⟩
        rcases inside_listOf hi with ⟨_, _, rfl⟩ | ⟨x, hx, hi⟩ | hi
        · exact absurd he id
        · have := h7 ⟨x, hx, p, hi, he⟩
          omega
        · cases hi
          exact absurd he id
      · rw [ending_dotted hnull] at h2
        cases hw : write high e with
        | none => rw [hw] at h2; simp at h2
        | some w =>
          rw [hw] at h2
          simp only [Option.bind_some, Option.some.injEq] at h2
          obtain ⟨h8, h9⟩ := longer hh n e (by
            have := listOf_end_size xs e
            change sizeOf (Datum.cons a (listOf xs e)) ≤ _ at hn
            simp at hn
            omega) (fun p hpe => hp p (inside_end hpe)) w v hw hv
          subst h2 h3
          simp only [List.length_append, List.length_cons, List.length_nil, l1, l2, l3]
          refine ⟨by omega, fun ⟨p, hi, he⟩ => ?_⟩
          rcases inside_listOf hi with ⟨_, _, rfl⟩ | ⟨x, hx, hi⟩ | hi
          · exact absurd he id
          · have := h7 ⟨x, hx, p, hi, he⟩
            omega
          · have := h9 ⟨p, hi, he⟩
            omega

end Meevax.Text
