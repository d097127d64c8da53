import Verif.Lemmas.Program
import Verif.Props.Reader

/-! # C96: programs as texts -/

namespace Meevax.Program

open Meevax.Text

variable {σ V ε : Type} {high : Nat → Bool}

/-! ### `load` -/

/-- **C96 for `load`**: the data of the file are evaluated in order, each before the next one is evaluated,
up to the first that throws. What is missing is the text that ends with a token or a comment without a
newline (`C96_token_fails`, `C96_comment_fails`). -/
theorem C96_load_partial {H : Host σ V ε} {ds : List Datum} {s : List Byte} (h : Program high ds s) (st : σ) :
    load H { rest := s } st = inOrder H.evaluate ds st := by
  cases h with
  | space hf hb =>
    rw [load_forms hf]
    cases inOrder H.evaluate ds st with
    | none => rfl
    | some r =>
      obtain ⟨r, s'⟩ := r
      cases r with
      | ok v => exact load_eof (read_space hb) s'
      | error t => rfl
  | list h0 h1 h2 h3 hs hm hf =>
    rw [load_forms hf, inOrder_append]
    congr 1
    funext r
    obtain ⟨r, s'⟩ := r
    cases r with
    | error t => rfl
    | ok v =>
      simp only [inOrder]
      rw [load_step (by simp) (read_last h0 h1 h2 h3 hs hm)]
      congr 1
      funext r
      obtain ⟨r, s''⟩ := r
      cases r with
      | error t => rfl
      | ok v => exact load_eof (read_space (high := high) Layout.nil) s''

/-- **C96: what comes later does not matter** for a form that throws: the rest of the text, whatever it is,
is not read. -/
theorem C96_stops {H : Host σ V ε} {ds : List Datum} {rest s : List Byte} (h : Forms high rest ds s)
    {st st' : σ} {t : Thrown ε} (ht : inOrder H.evaluate ds st = some (.error t, st')) :
    load H { rest := s } st = some (.error t, st') := by
  rw [load_forms h, ht]
  rfl

/-- **C96: a list that is not closed** is an error that can be caught, after the forms before it have been
evaluated. -/
theorem C96_unclosed {H : Host σ V ε} {ds : List Datum} {n : Bool} {s₀ s₁ s : List Byte}
    (hb : Layout high (.blank n) .null s₀) (hu : Unclosed high s₁) (h : Forms high (s₀ ++ 40 :: s₁) ds s)
    {st st' : σ} (ht : inOrder H.evaluate ds st = some (.ok (), st')) :
    load H { rest := s } st = some (.error (.error H.readError), st') := by
  rw [load_forms h, ht]
  obtain ⟨p, e⟩ := read_unclosed hu
  simp only [Option.bind]
  rw [load.eq_def, readDatum, Mode.Ok.blank (layout_ok hb) fun _ => ⟨40, _, rfl, by decide⟩, read_open, e]

theorem read_paren {r : List Byte} : read 0 { rest := 41 :: r } = some (.close, { rest := r }) := by
  rw [read.eq_def]
  simp [Port.ready, take_ascii, isWhite]

theorem read_stray {n : Bool} {s₀ r : List Byte} (hb : Layout high (.blank n) .null s₀) :
    read 0 { rest := s₀ ++ 41 :: r } = some (.close, { rest := r }) := by
  rw [Mode.Ok.blank (layout_ok hb) fun _ => ⟨41, _, rfl, by decide⟩]
  exact read_paren

/-- **C96 is false for a parenthesis that closes nothing**: what is thrown is no error, no handler sees it, and
the process is terminated, although the forms before it were evaluated without an error. -/
theorem C96_parenthesis_fails {H : Host σ V ε} {ds : List Datum} {n : Bool} {s₀ r s : List Byte}
    (hb : Layout high (.blank n) .null s₀) (h : Forms high (s₀ ++ 41 :: r) ds s)
    {st st' : σ} (ht : inOrder H.evaluate ds st = some (.ok (), st')) :
    load H { rest := s } st = some (.error .foreign, st') ∧
      status (.error (.foreign : Thrown ε)) = none := by
  refine ⟨?_, rfl⟩
  rw [load_forms h, ht]
  simp only [Option.bind]
  rw [load.eq_def, readDatum, read_stray hb]

/-- **C96 is false for a file that ends with a token without a newline**: it is evaluated, and then `load`
raises an error. -/
theorem C96_token_fails {H : Host σ V ε} {ds : List Datum} {s₀ s : List Byte}
    (hb : Layout high (.blank false) .null s₀) (h : Forms high (s₀ ++ ascii "1") ds s)
    {st st' : σ} (ht : inOrder H.evaluate (ds ++ [.num (.int 1)]) st = some (.ok (), st')) :
    load H { rest := s } st = some (.error (.error H.readError), st') := by
  obtain ⟨p, e1, e2⟩ := C60_token_fails
  rw [← Mode.Ok.blank (layout_ok hb) (by simp)] at e1
  rw [inOrder_append] at ht
  rw [load_forms h]
  cases hi : inOrder H.evaluate ds st with
  | none => simp [hi] at ht
  | some r =>
    obtain ⟨r, s1⟩ := r
    cases r with
    | error t => simp [hi] at ht
    | ok v =>
      simp only [hi, Option.bind, inOrder] at ht
      simp only [Option.bind]
      rw [load_step (by simp) e1]
      cases he : H.evaluate (.num (.int 1)) s1 with
      | none => simp [he] at ht
      | some r =>
        obtain ⟨r, s2⟩ := r
        cases r with
        | error t => simp [he] at ht
        | ok v =>
          simp only [he, Option.some.injEq, Prod.mk.injEq, true_and] at ht
          subst ht
          simp only [Option.bind]
          rw [load.eq_def, readDatum, e2]

theorem takeUntil_all {stop : Nat → Bool} {cs : List Char} (h : ∀ c ∈ cs, stop c.toNat = false) :
    ∃ s, Port.takeUntil stop { rest := encode cs } = some (s, { rest := [], eof := true, fail := true }) := by
  induction cs with
  | nil =>
    refine ⟨[0xFF], ?_⟩
    have e : Port.takeUntil stop { rest := [], eof := true, fail := true } =
        some ([], { rest := [], eof := true, fail := true }) := by
      rw [Port.takeUntil.eq_def]
      rfl
    rw [Port.takeUntil.eq_def, encode, List.flatMap_nil, take_end]
    simp [Port.ready, e]
  | cons c cs ih =>
    obtain ⟨s, e'⟩ := ih fun c hc => h c (by simp [hc])
    refine ⟨.ofNat c.toNat :: s, ?_⟩
    rw [Port.takeUntil.eq_def, encode, List.flatMap_cons, take_encoded]
    simp only [encode] at e'
    simp only [Port.ready, Bool.not_false, if_true, h c (by simp), Bool.false_eq_true, if_false, e']
    rfl

theorem read_lastComment {n : Bool} {s₀ : List Byte} (hb : Layout high (.blank n) .null s₀)
    {text : List Char} (hx : '\n' ∉ text) :
    read 0 { rest := s₀ ++ 59 :: encode text } = some (.error, { rest := [], eof := true, fail := true }) := by
  rw [Mode.Ok.blank (layout_ok hb) fun _ => ⟨59, _, rfl, by decide⟩]
  obtain ⟨s, e⟩ := takeUntil_all (stop := fun c => decide (c = 10)) (cs := text) fun c hc => by
    simp only [decide_eq_false_iff_not]
    intro h
    have : c = '\n' := Char.toNat_inj.1 h
    exact hx (this ▸ hc)
  rw [read.eq_def]
  simp [Port.ready, take_ascii (b := 59) (by decide), isWhite, e, read_failed]

/-- **C96 is false for a file whose last line is a comment without a newline**: after all data have been
evaluated, `load` raises an error. -/
theorem C96_comment_fails {H : Host σ V ε} {ds : List Datum} {n : Bool} {s₀ s : List Byte}
    (hb : Layout high (.blank n) .null s₀) {text : List Char} (hx : '\n' ∉ text)
    (h : Forms high (s₀ ++ 59 :: encode text) ds s) {st st' : σ}
    (ht : inOrder H.evaluate ds st = some (.ok (), st')) :
    load H { rest := s } st = some (.error (.error H.readError), st') := by
  rw [load_forms h, ht]
  simp only [Option.bind]
  rw [load.eq_def, readDatum, read_lastComment hb hx]

/-! ### The REPL -/

/-- A round that reads a datum. -/
theorem rounds_datum {H : Host σ V ε} {text : ε → List Byte} (hw : ∀ e, Raised H e → H.what e = some (text e)) {p p' : Port} {d : Datum} (hp : p.eof = false)
    (h : read 0 p = some (.datum d, p')) (n : Nat) (st : σ) (log : List (Event V)) :
    (rounds H (n + 1) { port := p, state := st, log := log }).map Progress.seen =
      (H.evaluate d st).bind fun r =>
        match r.1 with
        | .ok v => (rounds H n { port := p', state := r.2, log := log ++ [.printed v] }).map Progress.seen
        | .error (.error e) =>
          (rounds H n { port := p', state := r.2, log := log ++ [.reported (text e)] }).map Progress.seen
        | .error t => some (some (.error t, r.2, log)) := by
  simp only [rounds, round, hp, Bool.false_eq_true, if_false, readDatum, h]
  cases he : H.evaluate d st with
  | none => rfl
  | some r =>
    obtain ⟨r, s'⟩ := r
    cases r with
    | ok v => rfl
    | error t =>
      cases t with
      | error e => simp only [report, hw e (.inr ⟨d, st, s', he⟩), Option.bind]
      | _ => rfl

theorem rounds_forms {H : Host σ V ε} {text : ε → List Byte}
    (hw : ∀ e, Raised H e → H.what e = some (text e)) {rest s : List Byte} {ds : List Datum} (h : Forms high rest ds s) (n : Nat)
    (st : σ) (log : List (Event V)) :
    (rounds H (ds.length + n) { port := { rest := s }, state := st, log := log }).map Progress.seen =
      (dialogue H.evaluate text ds st log).bind fun r =>
        match r.1 with
        | .ok _ =>
          (rounds H n { port := { rest := rest }, state := r.2.1, log := r.2.2 }).map Progress.seen
        | .error t => some (some (.error t, r.2.1, r.2.2)) := by
  induction h generalizing st log with
  | done => simp [dialogue]
  | @form _ _ d _ ds _ h1 h2 hn _ h3 ih =>
    rw [show (d :: ds).length + n = ds.length + n + 1 by simp; omega,
      rounds_datum hw rfl (read_form h1 h2 hn h3)]
    simp only [dialogue]
    cases H.evaluate d st with
    | none => rfl
    | some r =>
      obtain ⟨r, s'⟩ := r
      cases r with
      | ok v => exact ih s' _
      | error t =>
        cases t with
        | error e => exact ih s' _
        | _ => rfl

theorem dialogue_append {evaluate : Datum → σ → Option (Except (Thrown ε) V × σ)} {text : ε → List Byte} {ds es : List Datum} {st : σ}
    {log : List (Event V)} :
    dialogue evaluate text (ds ++ es) st log = (dialogue evaluate text ds st log).bind fun r =>
      match r.1 with
      | .ok _ => dialogue evaluate text es r.2.1 r.2.2
      | .error t => some (.error t, r.2.1, r.2.2) := by
  induction ds generalizing st log with
  | nil => rfl
  | cons d ds ih =>
    simp only [List.cons_append, dialogue]
    cases evaluate d st with
    | none => rfl
    | some r =>
      obtain ⟨r, s'⟩ := r
      cases r with
      | ok v => exact ih
      | error t =>
        cases t with
        | error e => exact ih
        | _ => rfl

/-- The end of the input: the end-of-file object is evaluated too, and then it is over. -/
theorem rounds_end {H : Host σ V ε} {text : ε → List Byte}
    (hw : ∀ e, Raised H e → H.what e = some (text e)) {s : List Byte} (h : Layout high (.blank false) .null s) (n : Nat) (st : σ)
    (log : List (Event V)) :
    (rounds H (n + 2) { port := { rest := s }, state := st, log := log }).map Progress.seen =
      (dialogue H.evaluate text [.eof] st log).map some := by
  rw [rounds_datum hw rfl (read_space h)]
  simp only [dialogue]
  cases H.evaluate .eof st with
  | none => rfl
  | some r =>
    obtain ⟨r, s'⟩ := r
    cases r with
    | ok v => rfl
    | error t => cases t <;> rfl

/-- **C96 for the REPL**: on the text of a program it prints the value of each datum, or reports the error and
goes on, in order; at the end of the input it evaluates the end-of-file object and ends. Exceptions other than
errors end it at once. Any larger number of rounds gives the same. What is missing is the text that ends with
a token without a newline (`C96_repl_fails`), and errors without a text (`C96_repl_report_fails`). -/
theorem C96_repl_partial {H : Host σ V ε} {text : ε → List Byte}
    (hw : ∀ e, Raised H e → H.what e = some (text e)) {ds : List Datum} {s : List Byte} (h : Program high ds s) (n : Nat)
    (st : σ) :
    (rounds H (ds.length + (n + 2)) { port := { rest := s }, state := st }).map Progress.seen =
      (dialogue H.evaluate text (ds ++ [.eof]) st []).map some := by
  cases h with
  | space hf hb =>
    rw [rounds_forms hw hf, dialogue_append]
    cases dialogue H.evaluate text ds st [] with
    | none => rfl
    | some r =>
      obtain ⟨r, s', log⟩ := r
      cases r with
      | ok v => exact rounds_end hw hb n s' log
      | error t => rfl
  | @list ds _ _ _ _ _ a _ d _ h0 h1 h2 h3 hs hm hf =>
    rw [show (ds ++ [Datum.cons a d]).length + (n + 2) = ds.length + (n + 2 + 1) by simp; omega,
      rounds_forms hw hf, List.append_assoc, dialogue_append]
    cases dialogue H.evaluate text ds st [] with
    | none => rfl
    | some r =>
      obtain ⟨r, s', log⟩ := r
      cases r with
      | error t => rfl
      | ok v =>
        simp only [Option.bind, List.cons_append, List.nil_append]
        rw [rounds_datum hw rfl (read_last h0 h1 h2 h3 hs hm), dialogue]
        cases H.evaluate _ s' with
        | none => rfl
        | some r =>
          obtain ⟨r, s''⟩ := r
          cases r with
          | ok v => exact rounds_end (high := high) hw Layout.nil n s'' _
          | error t =>
            cases t with
            | error e => exact rounds_end (high := high) hw Layout.nil n s'' _
            | _ => rfl

/-- **C96 is false for input that ends with a token without a newline**: the REPL does not end, but reports the
same error for ever. -/
theorem C96_repl_fails {H : Host σ V ε} {s₀ : List Byte} (hb : Layout high (.blank false) .null s₀) {st st' : σ}
    {v : V} (he : H.evaluate (.num (.int 1)) st = some (.ok v, st')) {text : List Byte}
    (hw : H.what H.readError = some text) (n : Nat) :
    ∃ p, rounds H (n + 1) { port := { rest := s₀ ++ ascii "1" }, state := st } =
      some (.running { port := p, state := st',
                       log := .printed v :: List.replicate n (.reported text) }) := by
  generalize hq : ({ rest := [], eof := false, fail := true } : Port) = p
  have e1 := read_one
  rw [hq, ← Mode.Ok.blank (layout_ok hb) (by simp)] at e1
  have e2 : read 0 p = some (.error, p) := read_failed (by rw [← hq])
  have hp : p.eof = false := by rw [← hq]
  refine ⟨p, ?_⟩
  have key : ∀ n log, rounds H n { port := p, state := st', log := log } =
      some (.running { port := p, state := st', log := log ++ List.replicate n (.reported text) }) := by
    intro n
    induction n with
    | zero => simp [rounds]
    | succ n ih =>
      intro log
      simp only [rounds, round, hp, Bool.false_eq_true, if_false, readDatum, e2, report, hw]
      rw [ih, List.append_assoc, List.replicate_succ]
      rfl
  simp only [rounds, round, Bool.false_eq_true, if_false, readDatum, e1, he]
  exact key n _

/-- **C96 is false for a parenthesis that closes nothing** typed into the REPL: it ends the process, without a
report. -/
theorem C96_repl_parenthesis_fails {H : Host σ V ε} {n : Bool} {s₀ r : List Byte}
    (hb : Layout high (.blank n) .null s₀) (st : σ) (log : List (Event V)) (m : Nat) :
    rounds H (m + 1) { port := { rest := s₀ ++ 41 :: r }, state := st, log := log } =
      some (.ended (.error .foreign) { port := { rest := r }, state := st, log := log }) ∧
      status (.error (.foreign : Thrown ε)) = none := by
  refine ⟨?_, rfl⟩
  simp only [rounds, round, Bool.false_eq_true, if_false, readDatum, read_stray hb]

/-- **C96: an unclosed list at the end of the input** of the REPL is reported. -/
theorem C96_repl_unclosed {H : Host σ V ε} {n : Bool} {s₀ s₁ : List Byte}
    (hb : Layout high (.blank n) .null s₀) (hu : Unclosed high s₁) {text : List Byte} (hw : H.what H.readError = some text) (st : σ)
    (log : List (Event V)) :
    ∃ p, rounds H 1 { port := { rest := s₀ ++ 40 :: s₁ }, state := st, log := log } =
      some (.running { port := p, state := st, log := log ++ [.reported text] }) := by
  obtain ⟨p, e⟩ := read_unclosed hu
  refine ⟨p, ?_⟩
  have e' : read 0 { rest := s₀ ++ 40 :: s₁ } = some (.error, p) := by
    rw [Mode.Ok.blank (layout_ok hb) fun _ => ⟨40, _, rfl, by decide⟩, read_open, e]
  simp only [rounds, round, Bool.false_eq_true, if_false, readDatum, e', report, hw]

/-- **C96 for the report of an error**: the text is the message, and then the irritants, if there are any, as `write`
writes them. -/
theorem C96_report {cs : List Nat} {irritants : Datum} {text : List Byte} (h : write high irritants = some text) :
    (irritants = .null → what high (.string cs) irritants = some (cs.flatMap utf8)) ∧
      ((∃ a d, irritants = .cons a d) →
        what high (.string cs) irritants = some (cs.flatMap utf8 ++ ascii ": " ++ text)) := by
  refine ⟨?_, ?_⟩
  · rintro rfl
    rfl
  · rintro ⟨a, d, rfl⟩
    simp only [what, onHeap, if_true, h]
    rfl

/-- **C96 is false for errors whose message is no string**, as in `(error 'f "no")`: there is no text for them. -/
theorem C96_report_fails (name : List Byte) (irritants : Datum) : what high (.symbol name) irritants = none := rfl

/-- **C96 is false for errors without a text**: reporting one ends the process, with what is left of the input not
read. -/
theorem C96_repl_report_fails {H : Host σ V ε} {n : Bool} {s₁ s₂ s₃ : List Byte} {d : Datum}
    (h1 : Layout high (.blank n) .null s₁) (h2 : Layout high .datum d s₂) (hn : n = true → StartsDelimited s₂)
    (h3 : StartsDelimited s₃) {st st' : σ} {e : ε} (he : H.evaluate d st = some (.error (.error e), st'))
    (hw : H.what e = none) (log : List (Event V)) (m : Nat) :
    rounds H (m + 1) { port := { rest := s₁ ++ (s₂ ++ s₃) }, state := st, log := log } =
      some (.ended (.error (.exit 1)) { port := { rest := s₃ }, state := st', log := log }) := by
  simp only [rounds, round, Bool.false_eq_true, if_false, readDatum, read_form h1 h2 hn h3, he, report, hw]

/-! ### The exit status -/

/-- **C96 for the exit status** of a process that runs the text of a program: it is zero if every datum was
evaluated without an exception, one if an error or another exception of the system came first, and the
argument of `emergency-exit` if that came first. -/
theorem C96_status {H : Host σ V ε} {ds : List Datum} {s : List Byte} (h : Program high ds s) {st st' : σ}
    {r : Except (Thrown ε) Unit} (hr : load H { rest := s } st = some (r, st')) :
    inOrder H.evaluate ds st = some (r, st') ∧
      (status r = some 0 ↔ r = .ok () ∨ r = .error (.exit 0)) ∧
      ((∃ e, r = .error (.error e) ∨ r = .error (.exception e)) → status r = some 1) ∧
      (∀ n, r = .error (.exit n) → status r = some n) ∧
      (status r = none ↔ r = .error .foreign) := by
  rw [C96_load_partial h] at hr
  refine ⟨hr, ?_, ?_, ?_, ?_⟩
  · cases r with
    | ok v => simp [status]
    | error t => cases t <;> simp [status]
  · rintro ⟨e, rfl | rfl⟩ <;> rfl
  · rintro n rfl
    rfl
  · cases r with
    | ok v => simp [status]
    | error t => cases t <;> simp [status]

/-! ### The hypotheses can be met -/

/-- A system that counts: a number is an error, the end-of-file object and lists are counted. -/
def counter : Host Nat Nat Unit where
  evaluate d n := match d with
    | .num _ => some (.error (.error ()), n)
    | _ => some (.ok n, n + 1)
  readError := ()
  what _ := some (ascii "error")

theorem form_null {rest s : List Byte} {ds : List Datum} (h : Forms high rest ds s) (hs : StartsDelimited s) :
    Forms high rest (.null :: ds) (ascii " ()" ++ s) :=
  .form (n := false) (s₁ := [32]) (s₂ := [40, 41]) (.white (by decide) .nil) (.null .nil) (by simp) h hs

theorem newline_blank : Layout high (.blank false) .null [10] := .white (by decide) .nil

theorem two_forms : Forms high [10] [.null, .null] (ascii " () ()\n") :=
  form_null (form_null .done ⟨10, [], rfl, by decide⟩) ⟨32, _, rfl, by decide⟩

theorem two_program : Program high [.null, .null] (ascii " () ()\n") := .space two_forms newline_blank

example : load counter { rest := ascii " () ()\n" } 5 = some (.ok (), 7) := by
  rw [C96_load_partial (high := fun _ => true) two_program]
  rfl

/-- A list as the very end. -/
example : load counter { rest := ascii " ()(())" } 5 = some (.ok (), 7) := by
  have h : Program (fun _ => true) ([.null] ++ [.cons .null .null]) (ascii " ()(())") :=
    .list (n := false) (s₀ := []) (m := false) (s₁ := []) (s₂ := [40, 41]) (s₃ := [41]) .nil .nil (.null .nil)
      (.tailNull (s := []) .nil) ⟨41, [], rfl, by decide⟩ (by simp)
      (form_null .done ⟨40, _, rfl, by decide⟩)
  rw [C96_load_partial h]
  rfl

/-- The forms before an unclosed list are evaluated. -/
example : load counter { rest := ascii " ()\n(() (" } 5 = some (.error (.error ()), 6) := by
  have hu : Unclosed (fun _ => true) (ascii "() (") :=
    .element (n := false) (s₁ := []) (s₂ := [40, 41]) (s₃ := [32, 40]) .nil (.null .nil) (by simp)
      (.list (n := false) (s₁ := [32]) (s₂ := []) (.white (by decide) .nil) (.end_ .nil))
      (.inr ⟨32, _, rfl, by decide⟩)
  exact C96_unclosed (n := false) (ds := [.null]) (s₀ := [10]) (st := 5) (newline_blank (high := fun _ => true)) hu
    (form_null .done ⟨10, _, rfl, by decide⟩) rfl

example : load counter { rest := ascii " ()\n)" } 5 = some (.error .foreign, 6) :=
  (C96_parenthesis_fails (H := counter) (n := false) (ds := [.null]) (s₀ := [10]) (r := [])
    (newline_blank (high := fun _ => true)) (form_null .done ⟨10, _, rfl, by decide⟩) rfl).1

example : load counter { rest := ascii " ()\n; the end" } 5 = some (.error (.error ()), 6) :=
  C96_comment_fails (H := counter) (n := false) (ds := [.null]) (s₀ := [10]) (text := " the end".toList)
    (newline_blank (high := fun _ => true)) (by decide)
    (form_null .done ⟨10, _, rfl, by decide⟩) rfl

/-- A system that counts everything. -/
def tally : Host Nat Nat Unit where
  evaluate _ n := some (.ok n, n + 1)
  readError := ()
  what _ := some (ascii "error")

example : load tally { rest := ascii " ()\n1" } 5 = some (.error (.error ()), 7) :=
  C96_token_fails (H := tally) (ds := [.null]) (s₀ := [10]) (newline_blank (high := fun _ => true))
    (form_null .done ⟨10, _, rfl, by decide⟩) rfl

example (n : Nat) : ∃ p, rounds tally (n + 1) { port := { rest := ascii "\n1" }, state := 5 } =
    some (.running { port := p, state := 6, log := .printed 5 :: List.replicate n (.reported (ascii "error")) }) :=
  C96_repl_fails (H := tally) (s₀ := [10]) (newline_blank (high := fun _ => true)) rfl rfl n

/-- `(error "no" #t)` and `(error 'f "no")`. -/
example : what (fun _ => true) (.string [110, 111]) (.cons (.bool true) .null) = some (ascii "no: (#t)") ∧
    what (fun _ => true) (.symbol [102]) (.cons (.string [110, 111]) .null) = none := by
  have e : write (fun _ => true) (.cons (.bool true) .null) = some (ascii "(#t)") := by
    simp [write, writeTail]
    decide
  exact ⟨(C96_report e).2 ⟨_, _, rfl⟩, rfl⟩

/-- A system where everything is an error without a text. -/
def mute : Host Nat Nat Unit where
  evaluate _ n := some (.error (.error ()), n + 1)
  readError := ()
  what _ := none

example : rounds mute 7 { port := { rest := ascii "()\n()" }, state := 5 } =
    some (.ended (.error (.exit 1)) { port := { rest := ascii "\n()" }, state := 6, log := [] }) :=
  C96_repl_report_fails (H := mute) (n := false) (s₁ := []) (s₂ := [40, 41]) (s₃ := ascii "\n()")
    (high := fun _ => true) .nil (.null .nil) (by simp) ⟨10, _, rfl, by decide⟩ rfl rfl [] 6

/-- The value of the end-of-file object is printed as well. -/
example : (rounds counter 4 { port := { rest := ascii " () ()\n" }, state := 5 }).map Progress.seen =
    some (some (.ok (), 8, [.printed 5, .printed 6, .printed 7])) := by
  rw [show 4 = [Datum.null, .null].length + (0 + 2) from rfl,
    C96_repl_partial (high := fun _ => true) (text := fun _ => ascii "error") (fun _ _ => rfl) two_program]
  rfl

end Meevax.Program
