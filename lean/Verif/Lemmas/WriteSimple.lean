import Verif.Lemmas.Display

namespace Meevax.Text

mutual

/-- `HasDot`, as a function. -/
def hasDot : Datum → Bool
  | .cons a d => hasDot a || dotTail d
  | _ => false

/-- The rest of a list has a dot. -/
def dotTail : Datum → Bool
  | .null => false
  | .cons a d => hasDot a || dotTail d
  | _ => true

end

theorem dotTail_listOf {e : Datum} (xs : List Datum) (he : dotTail e = true) : dotTail (listOf xs e) = true := by
  induction xs with
  | nil => exact he
  | cons x xs ih =>
    show dotTail (.cons x (listOf xs e)) = true
    rw [dotTail, ih]
    simp

theorem dotTail_mem {x e : Datum} {xs : List Datum} (hx : x ∈ xs) (h : hasDot x = true) :
    dotTail (listOf xs e) = true := by
  induction xs with
  | nil => simp at hx
  | cons y xs ih =>
    show dotTail (.cons y (listOf xs e)) = true
    rw [dotTail]
    rcases List.mem_cons.1 hx with hx | hx
    · rw [← hx, h]
      simp
    · rw [ih hx]
      simp

theorem hasDot_cons (a d : Datum) : hasDot (.cons a d) = dotTail (.cons a d) := by
  rw [hasDot, dotTail]

theorem hasDot_of {d : Datum} (h : HasDot d) : hasDot d = true := by
  induction h with
  | @here x xs e hn hc =>
    have he : dotTail e = true := by
      cases e <;> first | rfl | exact absurd rfl hn | exact absurd rfl (hc _ _)
    show hasDot (.cons x (listOf xs e)) = true
    rw [hasDot, dotTail_listOf xs he]
    simp
  | @element x xs e hx _ ih =>
    cases xs with
    | nil => simp at hx
    | cons y ys =>
      have := dotTail_mem (e := e) hx ih
      show hasDot (.cons y (listOf ys e)) = true
      rw [hasDot_cons]
      exact this

theorem of_hasDot : (d : Datum) →
    (hasDot d = true → HasDot d) ∧ (dotTail d = true → ∀ a, HasDot (.cons a d))
  | .cons a d => by
    have h1 : hasDot a = true ∨ dotTail d = true → HasDot (.cons a d) := by
      rintro (h | h)
      · exact HasDot.element (xs := [a]) (e := d) List.mem_cons_self ((of_hasDot a).1 h)
      · exact (of_hasDot d).2 h a
    refine ⟨fun h => ?_, fun h b => ?_⟩
    · rw [hasDot, Bool.or_eq_true] at h
      exact h1 h
    · rw [dotTail, Bool.or_eq_true] at h
      rcases h with h | h
      · exact HasDot.element (xs := [b, a]) (e := d) (List.mem_cons_of_mem _ List.mem_cons_self) ((of_hasDot a).1 h)
      · have := (of_hasDot d).2 h a
        obtain ⟨xs, e, hd, he⟩ := exists_listOf d
        subst hd
        generalize hc : Datum.cons a (listOf xs e) = c at this
        cases this with
        | @here x ys f hn hf =>
          exact HasDot.here (x := b) (xs := x :: ys) hn hf
        | @element x ys f hx hd' =>
          exact HasDot.element (xs := b :: ys) (e := f) (List.mem_cons_of_mem _ hx) hd'
  | .null => ⟨fun h => absurd h (by simp [hasDot]), fun h => absurd h (by simp [dotTail])⟩
  | .bool b => ⟨fun h => absurd h (by simp [hasDot]), fun _ a => HasDot.here (x := a) (xs := []) (by simp) (by simp)⟩
  | .num n => ⟨fun h => absurd h (by simp [hasDot]), fun _ a => HasDot.here (x := a) (xs := []) (by simp) (by simp)⟩
  | .char n => ⟨fun h => absurd h (by simp [hasDot]), fun _ a => HasDot.here (x := a) (xs := []) (by simp) (by simp)⟩
  | .string n => ⟨fun h => absurd h (by simp [hasDot]), fun _ a => HasDot.here (x := a) (xs := []) (by simp) (by simp)⟩
  | .symbol n => ⟨fun h => absurd h (by simp [hasDot]), fun _ a => HasDot.here (x := a) (xs := []) (by simp) (by simp)⟩
  | .vector n => ⟨fun h => absurd h (by simp [hasDot]), fun _ a => HasDot.here (x := a) (xs := []) (by simp) (by simp)⟩
  | .u8vector n => ⟨fun h => absurd h (by simp [hasDot]), fun _ a => HasDot.here (x := a) (xs := []) (by simp) (by simp)⟩
  | .eof => ⟨fun h => absurd h (by simp [hasDot]), fun _ a => HasDot.here (x := a) (xs := []) (by simp) (by simp)⟩

theorem hasDot_iff {d : Datum} : HasDot d ↔ hasDot d = true := ⟨hasDot_of, (of_hasDot d).1⟩

/-- The output of a procedure that comes to its end. -/
def finished (s : List Byte) : Output := { text := s, done := true }

theorem writeSimple_atom {high : Nat → Bool} {d : Datum} (h : ∀ a b, d ≠ .cons a b) :
    writeSimple high d = (write high d).map finished := by
  cases d <;> first
    | exact absurd rfl (h _ _)
    | (rw [writeSimple] <;> first | (cases write high _ <;> rfl) | simp)

theorem andThen_finished (s : List Byte) (o : Option (List Byte)) :
    (finished s).andThen (o.map finished) = (o.map (s ++ ·)).map finished := by
  cases o <;> rfl

theorem writeSimple_proper {high : Nat → Bool} : (d : Datum) →
    (hasDot d = false → writeSimple high d = (write high d).map finished) ∧
    (dotTail d = false → simpleTail high d = (writeTail high d).map finished)
  | .cons a d => by
    have h1 : hasDot a = false → dotTail d = false → ∀ c,
        (do let o ← writeSimple high a
            Output.andThen { text := [c] ++ o.text, done := o.done } (simpleTail high d)) =
        (do let s ← write high a
            let t ← writeTail high d
            some ([c] ++ s ++ t)).map finished := by
      intro ha hd c
      rw [(writeSimple_proper a).1 ha, (writeSimple_proper d).2 hd]
      cases write high a with
      | none => rfl
      | some s => cases writeTail high d <;> rfl
    refine ⟨fun h => ?_, fun h => ?_⟩
    · rw [hasDot, Bool.or_eq_false_iff] at h
      rw [writeSimple, write]
      exact h1 h.1 h.2 40
    · rw [dotTail, Bool.or_eq_false_iff] at h
      rw [simpleTail, writeTail]
      exact h1 h.1 h.2 32
  | .null => ⟨fun _ => writeSimple_atom (by simp), fun _ => by rw [simpleTail, writeTail]; rfl⟩
  | .bool _ => ⟨fun _ => writeSimple_atom (by simp), fun h => absurd h (by simp [dotTail])⟩
  | .num _ => ⟨fun _ => writeSimple_atom (by simp), fun h => absurd h (by simp [dotTail])⟩
  | .char _ => ⟨fun _ => writeSimple_atom (by simp), fun h => absurd h (by simp [dotTail])⟩
  | .string _ => ⟨fun _ => writeSimple_atom (by simp), fun h => absurd h (by simp [dotTail])⟩
  | .symbol _ => ⟨fun _ => writeSimple_atom (by simp), fun h => absurd h (by simp [dotTail])⟩
  | .vector _ => ⟨fun _ => writeSimple_atom (by simp), fun h => absurd h (by simp [dotTail])⟩
  | .u8vector _ => ⟨fun _ => writeSimple_atom (by simp), fun h => absurd h (by simp [dotTail])⟩
  | .eof => ⟨fun _ => writeSimple_atom (by simp), fun h => absurd h (by simp [dotTail])⟩

theorem simpleNumber_longer {n : Num} {o : Output} {s : List Byte} (ho : simpleNumber n = some o)
    (hs : writeNum n = some s) (hd : o.done = true) : (ascii " . " ++ s ++ [41]).length < o.text.length := by
  cases n with
  | int n =>
    rw [simpleNumber, hs] at ho
    simp only [Option.bind_eq_bind, Option.bind_some, Option.some.injEq] at ho
    split at ho
    · subst ho
      simp at hd
    · subst ho
      simp
  | ratio n d =>
    rw [simpleNumber, hs] at ho
    simp only [Option.bind_eq_bind, Option.bind_some, Option.some.injEq] at ho
    subst ho
    simp
  | rectangular x y =>
    rw [simpleNumber, hs] at ho
    simp only [Option.bind_eq_bind, Option.bind_some, Output.andThen, if_true] at ho
    cases hy : simpleNumber y with
    | none => rw [hy] at ho; simp at ho
    | some p =>
      rw [hy] at ho
      simp only [Option.bind_some, Option.some.injEq] at ho
      have : p.text ≠ [] := by
        cases y with
        | int n =>
          rw [simpleNumber] at hy
          simp only [writeNum, Option.bind_eq_bind, Option.bind_some, Option.some.injEq] at hy
          rw [← hy]
          split <;> simp
        | ratio n d =>
          rw [simpleNumber] at hy
          simp only [writeNum, Option.bind_eq_bind, Option.bind_some, Option.some.injEq] at hy
          rw [← hy]
          simp
        | rectangular x y =>
          rw [simpleNumber] at hy
          cases hw : writeNum (.rectangular x y) with
          | none => rw [hw] at hy; simp at hy
          | some u =>
            rw [hw] at hy
            simp only [Option.bind_eq_bind, Option.bind_some, Output.andThen, if_true] at hy
            cases hz : simpleNumber y with
            | none => rw [hz] at hy; simp at hy
            | some q =>
              rw [hz] at hy
              simp only [Option.bind_some, Option.some.injEq] at hy
              rw [← hy]
              simp
        | inexact l => simp [simpleNumber] at hy
        | polar x y => simp [simpleNumber] at hy
      have := List.length_pos_iff.2 this
      rw [← ho]
      simp only [List.length_append]
      omega
  | inexact l => simp [simpleNumber] at ho
  | polar x y => simp [simpleNumber] at ho

/-- The two claims about the length of what is put on the port. -/
def SimpleLonger (high : Nat → Bool) (d : Datum) : Prop :=
  (∀ o s, writeSimple high d = some o → write high d = some s → o.done = true →
    s.length ≤ o.text.length ∧ (hasDot d = true → s.length < o.text.length)) ∧
  (∀ o s, simpleTail high d = some o → writeTail high d = some s → o.done = true →
    s.length ≤ o.text.length ∧ (dotTail d = true → s.length < o.text.length))

theorem simple_atom {high : Nat → Bool} {d : Datum} (h : ∀ a b, d ≠ .cons a b) {o : Output} {s : List Byte}
    (ho : writeSimple high d = some o) (hs : write high d = some s) :
    s.length ≤ o.text.length ∧ (hasDot d = true → s.length < o.text.length) := by
  rw [writeSimple_atom h, hs] at ho
  simp only [Option.map_some, Option.some.injEq] at ho
  rw [← ho]
  refine ⟨Nat.le_refl _, fun hd => ?_⟩
  cases d <;> first | exact absurd rfl (h _ _) | simp [hasDot] at hd

theorem simple_longer {high : Nat → Bool} : (d : Datum) → SimpleLonger high d
  | .cons a d => by
    obtain ⟨a1, -⟩ := simple_longer (high := high) a
    obtain ⟨-, d2⟩ := simple_longer (high := high) d
    have h1 : ∀ c o s, (do
          let o ← writeSimple high a
          Output.andThen { text := [c] ++ o.text, done := o.done } (simpleTail high d)) = some o →
        (do let s ← write high a
            let t ← writeTail high d
            some ([c] ++ s ++ t)) = some s → o.done = true →
        s.length ≤ o.text.length ∧ ((hasDot a || dotTail d) = true → s.length < o.text.length) := by
      intro c o s ho hs hd
      cases hx : writeSimple high a with
      | none => rw [hx] at ho; simp at ho
      | some p =>
        cases hy : write high a with
        | none => rw [hy] at hs; simp at hs
        | some u =>
          cases hz : writeTail high d with
          | none => rw [hy, hz] at hs; simp at hs
          | some v =>
            rw [hy, hz] at hs
            rw [hx] at ho
            simp only [Option.bind_eq_bind, Option.bind_some, Output.andThen, Option.some.injEq] at ho hs
            cases hp : p.done with
            | false =>
              rw [hp] at ho
              simp only [Bool.false_eq_true, if_false, Option.some.injEq] at ho
              rw [← ho] at hd
              simp at hd
            | true =>
              rw [hp] at ho
              simp only [if_true] at ho
              cases hw : simpleTail high d with
              | none => rw [hw] at ho; simp at ho
              | some q =>
                rw [hw] at ho
                simp only [Option.bind_some, Option.some.injEq] at ho
                rw [← ho] at hd ⊢
                rw [← hs]
                obtain ⟨h1, h2⟩ := a1 _ _ hx hy hp
                obtain ⟨h3, h4⟩ := d2 _ _ hw hz hd
                simp only [List.length_append]
                refine ⟨by omega, fun h => ?_⟩
                rw [Bool.or_eq_true] at h
                rcases h with h | h
                · have := h2 h
                  omega
                · have := h4 h
                  omega
    refine ⟨fun o s ho hs hd => ?_, fun o s ho hs hd => ?_⟩
    · rw [writeSimple] at ho
      rw [write] at hs
      rw [hasDot]
      exact h1 40 o s ho hs hd
    · rw [simpleTail] at ho
      rw [writeTail] at hs
      rw [dotTail]
      exact h1 32 o s ho hs hd
  | .null => by
    refine ⟨fun o s ho hs _ => simple_atom (by simp) ho hs, fun o s ho hs _ => ?_⟩
    simp [simpleTail] at ho
    simp [writeTail] at hs
    rw [← ho, ← hs]
    simp [dotTail]
  | .num n => by
    refine ⟨fun o s ho hs _ => simple_atom (by simp) ho hs, fun o s ho hs hd => ?_⟩
    rw [simpleTail] at ho
    rw [writeTail, write] at hs
    · cases hw : writeNum n with
      | none => rw [hw] at hs; simp at hs
      | some u =>
        rw [hw] at hs
        simp only [Option.bind_eq_bind, Option.bind_some, Option.some.injEq] at hs
        have := simpleNumber_longer ho hw hd
        rw [← hs]
        exact ⟨Nat.le_of_lt this, fun _ => this⟩
    all_goals simp
  | .bool b => by
    refine ⟨fun o s ho hs _ => simple_atom (by simp) ho hs, fun o s ho hs hd => ?_⟩
    rw [simpleTail, write] at ho
    simp at ho
    rw [← ho] at hd
    simp at hd
  | .char b => by
    refine ⟨fun o s ho hs _ => simple_atom (by simp) ho hs, fun o s ho hs hd => ?_⟩
    rw [simpleTail, write] at ho
    simp at ho
    rw [← ho] at hd
    simp at hd
  | .string cs => by
    refine ⟨fun o s ho hs _ => simple_atom (by simp) ho hs, fun o s ho hs hd => ?_⟩
    exact heap (by simp) ho hs
  | .symbol cs => by
    refine ⟨fun o s ho hs _ => simple_atom (by simp) ho hs, fun o s ho hs hd => ?_⟩
    exact heap (by simp) ho hs
  | .vector cs => by
    refine ⟨fun o s ho hs _ => simple_atom (by simp) ho hs, fun o s ho hs hd => ?_⟩
    exact heap (by simp) ho hs
  | .u8vector cs => by
    refine ⟨fun o s ho hs _ => simple_atom (by simp) ho hs, fun o s ho hs hd => ?_⟩
    exact heap (by simp) ho hs
  | .eof => by
    refine ⟨fun o s ho hs _ => simple_atom (by simp) ho hs, fun o s ho hs hd => ?_⟩
    exact heap (by simp) ho hs
where
  heap {high : Nat → Bool} {d : Datum} (h : d ≠ .null ∧ (∀ a b, d ≠ .cons a b) ∧ (∀ n, d ≠ .num n) ∧ (∀ b, d ≠ .bool b) ∧
      ∀ c, d ≠ .char c) {o : Output} {s : List Byte} (ho : simpleTail high d = some o)
      (hs : writeTail high d = some s) : s.length ≤ o.text.length ∧ (dotTail d = true → s.length < o.text.length) := by
    obtain ⟨h1, h2, h3, h4, h5⟩ := h
    rw [simpleTail.eq_def] at ho
    rw [writeTail.eq_def] at hs
    have key : s.length < o.text.length := by
      cases d <;> first
        | exact absurd rfl h1 | exact absurd rfl (h2 _ _) | exact absurd rfl (h3 _) | exact absurd rfl (h4 _)
        | exact absurd rfl (h5 _)
        | (simp only at ho hs
           cases hw : write high _ with
           | none => rw [hw] at hs; simp at hs
           | some u =>
             rw [hw] at hs ho
             simp only [Option.bind_eq_bind, Option.bind_some, Option.some.injEq] at hs ho
             rw [← hs, ← ho]
             simp)
    exact ⟨Nat.le_of_lt key, fun _ => key⟩

end Meevax.Text
