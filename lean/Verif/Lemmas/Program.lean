import Verif.Spec.Program
import Verif.Lemmas.Layout

/-! Reading the forms of a program. -/

namespace Meevax.Program

open Meevax.Text

variable {σ V ε : Type} {high : Nat → Bool}

/-- The text of a datum is not the end of the file. -/
theorem datum_ne_eof {d : Datum} {s : List Byte} (h : Layout high .datum d s) : d ≠ .eof := by
  rintro rfl
  cases h with
  | written h _ => simp [Readable] at h

theorem read_form {n : Bool} {s₁ s₂ s₃ : List Byte} {d : Datum} (h1 : Layout high (.blank n) .null s₁)
    (h2 : Layout high .datum d s₂) (hn : n = true → StartsDelimited s₂) (h3 : StartsDelimited s₃) :
    read 0 { rest := s₁ ++ (s₂ ++ s₃) } = some (.datum d, { rest := s₃ }) := by
  rw [Mode.Ok.blank (layout_ok h1) fun h => (hn h).append _]
  exact Reads.at (layout_ok h2) h3

theorem read_last {n m : Bool} {s₀ s₁ s₂ s₃ : List Byte} {a d : Datum} (h0 : Layout high (.blank n) .null s₀)
    (h1 : Layout high (.blank m) .null s₁) (h2 : Layout high .datum a s₂) (h3 : Layout high .tail d s₃)
    (hs : StartsDelimited s₃) (hm : m = true → StartsDelimited s₂) :
    read 0 { rest := s₀ ++ 40 :: (s₁ ++ (s₂ ++ s₃)) } = some (.datum (.cons a d), { rest := [] }) := by
  rw [Mode.Ok.blank (layout_ok h0) fun _ => ⟨40, _, rfl, by decide⟩, read_open,
    Mode.Ok.blank40 (layout_ok h1) fun h => (hm h).append _]
  have := layout_ok h3 []
  rw [List.append_nil] at this
  exact read_list rfl (Reads.at (layout_ok h2) hs) this

theorem load_step {H : Host σ V ε} {p p' : Port} {d : Datum} (hd : d ≠ .eof)
    (h : read 0 p = some (.datum d, p')) (s : σ) :
    load H p s = (H.evaluate d s).bind fun r =>
      match r.1 with
      | .ok _ => load H p' r.2
      | .error t => some (.error t, r.2) := by
  rw [load.eq_def]
  simp only [readDatum, h]
  cases d with
  | eof => exact absurd rfl hd
  | _ =>
    all_goals
      cases H.evaluate _ s with
      | none => rfl
      | some r =>
        obtain ⟨r, s'⟩ := r
        cases r <;> rfl

theorem load_eof {H : Host σ V ε} {p p' : Port} (h : read 0 p = some (.datum .eof, p')) (s : σ) :
    load H p s = some (.ok (), s) := by
  rw [load.eq_def]
  simp only [readDatum, h]

/-- Loading evaluates the forms, and goes on with the rest. -/
theorem load_forms {H : Host σ V ε} {rest s : List Byte} {ds : List Datum} (h : Forms high rest ds s) (st : σ) :
    load H { rest := s } st = (inOrder H.evaluate ds st).bind fun r =>
      match r.1 with
      | .ok _ => load H { rest := rest } r.2
      | .error t => some (.error t, r.2) := by
  induction h generalizing st with
  | done => rfl
  | form h1 h2 hn _ h3 ih =>
    rw [load_step (datum_ne_eof h2) (read_form h1 h2 hn h3)]
    simp only [inOrder]
    cases H.evaluate _ st with
    | none => rfl
    | some r =>
      obtain ⟨r, s'⟩ := r
      cases r with
      | ok v => exact ih s'
      | error t => rfl

theorem inOrder_append {evaluate : Datum → σ → Option (Except (Thrown ε) V × σ)} {ds es : List Datum} {st : σ} :
    inOrder evaluate (ds ++ es) st = (inOrder evaluate ds st).bind fun r =>
      match r.1 with
      | .ok _ => inOrder evaluate es r.2
      | .error t => some (.error t, r.2) := by
  induction ds generalizing st with
  | nil => rfl
  | cons d ds ih =>
    simp only [List.cons_append, inOrder]
    cases evaluate d st with
    | none => rfl
    | some r =>
      obtain ⟨r, s'⟩ := r
      cases r with
      | ok v => exact ih
      | error t => rfl

/-- Nothing but space is left. -/
theorem read_space {s : List Byte} (h : Layout high (.blank false) .null s) :
    read 0 { rest := s } = some (.datum .eof, { rest := [], eof := true, fail := true }) := by
  have := layout_ok h []
  rw [List.append_nil] at this
  rw [this, read.eq_def]
  simp [Port.ready, take_end]

theorem read_failed {c : Nat} {p : Port} (h : p.fail = true) : read c p = some (.error, p) := by
  rw [read.eq_def]
  simp [Port.ready, h]

/-- A list whose text has been used up. -/
theorem read_exhausted {p : Port} (h : p.rest = []) : ∃ p', read 40 p = some (.error, p') := by
  obtain ⟨r, e, f⟩ := p
  cases h
  cases f with
  | true => exact ⟨_, read_failed rfl⟩
  | false =>
    have h1 : read 0 { rest := [], eof := e, fail := false } =
        some (.datum .eof, { rest := [], eof := true, fail := true }) := by
      rw [read.eq_def]
      cases e <;> simp [Port.ready, Port.take, Port.peekByte, Port.getByte, Port.good]
    refine ⟨{ rest := [], eof := true, fail := true }, ?_⟩
    rw [read.eq_def]
    simp [Port.ready, isWhite, h1, read_failed]

theorem read_unclosed {s : List Byte} (h : Unclosed high s) : ∃ p, read 40 { rest := s } = some (.error, p) := by
  induction h with
  | end_ h =>
    refine ⟨{ rest := [], eof := true, fail := true }, ?_⟩
    rw [read.eq_def]
    simp [Port.ready, isWhite, read_space h, read_failed]
  | @element n s₁ d s₂ s₃ h1 h2 hn _ h3 ih =>
    obtain ⟨p, e, ends⟩ := layout_ok h2 s₃ h3
    have e1 : read 0 { rest := s₁ ++ (s₂ ++ s₃) } = some (.datum d, p) := by
      rw [Mode.Ok.blank (layout_ok h1) fun h => (hn h).append _]
      exact e
    have e2 : ∃ p', read 40 p = some (.error, p') := by
      rcases h3 with rfl | ⟨b, bs, rfl, _⟩
      · exact read_exhausted ends.1
      · rw [ends.eq]
        exact ih
    obtain ⟨p', e2⟩ := e2
    refine ⟨p', ?_⟩
    rw [read.eq_def]
    simp [Port.ready, isWhite, e1, e2]
  | @list n s₁ s₂ h1 _ ih =>
    obtain ⟨p, e⟩ := ih
    refine ⟨p, ?_⟩
    rw [Mode.Ok.blank40 (layout_ok h1) fun _ => ⟨40, _, rfl, by decide⟩, read.eq_def]
    simp [Port.ready, isWhite, read_open, e]

end Meevax.Program
