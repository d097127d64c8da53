import Verif.Model.CommandLine
import Verif.Spec.CommandLine
import Mathlib.Tactic.Tauto
import Mathlib.Data.List.TakeWhile

/-
C80: the command line.
-/

namespace Meevax.Cli

variable {D E P W : Type}

/-! ### Characters -/

theorem isWord_iff (c : Char) : isWord c = true ↔ Word c := by
  simp only [isWord, Word, Char.isAlphanum, Char.isAlpha, Char.isUpper, Char.isLower, Char.isDigit, Bool.or_eq_true,
    Bool.and_eq_true, decide_eq_true_eq, beq_iff_eq, Char.le_def, ge_iff_le]
  tauto

theorem long_match {n : Arg} (h : LongName n) : regexMatch (long n) = some ⟨n, [], []⟩ := by
  obtain ⟨c, d, rest, rfl, h1, h2⟩ := h
  have hall : ∀ x ∈ c :: d :: rest, (isWord x || x == '-') = true := by
    intro x hx
    rcases List.mem_cons.1 hx with rfl | hx
    · simp [(isWord_iff _).2 h1]
    · rcases h2 x hx with h | rfl
      · simp [(isWord_iff _).2 h]
      · simp
  have e1 := List.takeWhile_eq_self_iff.2 hall
  have e2 := List.dropWhile_eq_nil_iff.2 hall
  simp only [regexMatch, long, e1, e2, (isWord_iff _).2 h1, if_true]

theorem word_ne {c : Char} (h : Word c) : c ≠ '-' ∧ c ≠ '=' := by
  constructor <;> (rintro rfl; revert h; simp [Word])

theorem longEq_split {n t : Arg} (h : LongName n) :
    (n ++ '=' :: t).takeWhile (fun c => isWord c || c == '-') = n ∧
    (n ++ '=' :: t).dropWhile (fun c => isWord c || c == '-') = '=' :: t := by
  obtain ⟨c, d, rest, rfl, h1, h2⟩ := h
  have hall : ∀ x ∈ c :: d :: rest, (isWord x || x == '-') = true := by
    intro x hx
    rcases List.mem_cons.1 hx with rfl | hx
    · simp [(isWord_iff _).2 h1]
    · rcases h2 x hx with h | rfl
      · simp [(isWord_iff _).2 h]
      · simp
  have heq : (isWord '=' || '=' == '-') = false := by decide
  constructor
  · rw [List.takeWhile_append_of_pos hall, List.takeWhile_cons_of_neg (by rw [heq]; simp)]
    simp
  · rw [List.dropWhile_append_of_pos hall, List.dropWhile_cons_of_neg (by rw [heq]; simp)]

theorem oneLine_iff (t : Arg) : t.all (fun c => c != '\n' && c != '\r') = true ↔ OneLine t := by
  simp only [List.all_eq_true, Bool.and_eq_true, bne_iff_ne, ne_eq, OneLine]
  constructor
  · exact fun h => ⟨fun hm => (h _ hm).1 rfl, fun hm => (h _ hm).2 rfl⟩
  · rintro ⟨h1, h2⟩ x hx
    exact ⟨fun e => h1 (e ▸ hx), fun e => h2 (e ▸ hx)⟩

theorem longEq_match {n t : Arg} (h : LongName n) (ht : OneLine t) :
    regexMatch (longEq n t) = some ⟨n, t, []⟩ := by
  obtain ⟨e1, e2⟩ := longEq_split (t := t) h
  obtain ⟨c, d, rest, rfl, h1, h2⟩ := h
  simp only [regexMatch, longEq, List.cons_append] at e1 e2 ⊢
  simp only [e1, e2, (isWord_iff _).2 h1, if_true, (oneLine_iff t).2 ht]

theorem short_match {cs : List Char} (h0 : cs ≠ []) (h : ∀ c ∈ cs, Word c) :
    regexMatch ('-' :: cs) = some ⟨[], [], cs⟩ := by
  cases cs with
  | nil => exact absurd rfl h0
  | cons c cs =>
    have hc : c ≠ '-' := (word_ne (h c (by simp))).1
    have : (c :: cs).all isWord = true := List.all_eq_true.2 fun x hx => (isWord_iff x).2 (h x hx)
    unfold regexMatch
    split
    · rename_i heq
      simp only [List.cons.injEq] at heq
      exact absurd heq.2.1 hc
    · rename_i heq
      simp only [List.cons.injEq] at heq
      obtain ⟨-, rfl, rfl⟩ := heq
      rw [if_pos this]
    · rename_i h1 h2
      exact absurd rfl (h2 c cs)

theorem match_optionLike {a : Arg} {g : Groups} (h : regexMatch a = some g) : OptionLike a := by
  unfold regexMatch at h
  split at h
  · rename_i rest
    simp only at h
    split at h
    · rename_i c d tl hname
      split at h
      · rename_i hc
        have hall : ∀ x ∈ c :: d :: tl, (isWord x || x == '-') = true := by
          intro x hx
          rw [← hname] at hx
          exact List.mem_takeWhile_imp (p := fun c => isWord c || c == '-') hx
        have hn : LongName (c :: d :: tl) := by
          refine ⟨c, d, tl, rfl, (isWord_iff c).1 hc, fun x hx => ?_⟩
          have := hall x (List.mem_cons_of_mem _ hx)
          simp only [Bool.or_eq_true, beq_iff_eq] at this
          exact this.imp (isWord_iff x).1 id
        have hrest := List.takeWhile_append_dropWhile (p := fun c => isWord c || c == '-') (l := rest)
        rw [hname] at hrest
        split at h
        · rename_i hafter
          rw [hafter, List.append_nil] at hrest
          rw [← hrest]
          exact .long hn
        · rename_i text hafter
          split at h
          · rename_i ht
            rw [hafter] at hrest
            rw [← hrest]
            exact .longEq hn ((oneLine_iff text).1 ht)
          · simp at h
        · simp at h
      · simp at h
    · simp at h
  · rename_i c cs _
    split at h
    · rename_i hall
      exact .short (by simp) fun x hx => (isWord_iff x).1 (List.all_eq_true.1 hall x hx)
    · simp at h
  · simp at h

theorem not_optionLike_match {a : Arg} (h : ¬OptionLike a) : regexMatch a = none := by
  cases e : regexMatch a with
  | none => rfl
  | some g => exact absurd (match_optionLike e) h

/-! ### Options -/

/-- The operation and the command belong together. -/
inductive Takes : Op → (Arg → Cmd) → Prop
  | append : Takes .append .append
  | feature : Takes .feature .feature
  | prepend : Takes .prepend .prepend
  | color : Takes .color .color
  | evaluate : Takes .evaluate .evaluate
  | load : Takes .load .load
  | write : Takes .write .write

inductive Alone : Op → Cmd → Prop
  | help : Alone .help .help
  | interactive : Alone .interactive .interactive
  | directories : Alone .directories .directories
  | version : Alone .version .version

theorem find_operand {n : String} {k : Arg → Cmd} (h : WithOperand n k) :
    ∃ op, Takes op k ∧ (evaluator n.toList : Run D E P W Op) = pure op := by
  cases h
  · exact ⟨_, .append, rfl⟩
  · exact ⟨_, .append, rfl⟩
  · exact ⟨_, .feature, rfl⟩
  · exact ⟨_, .feature, rfl⟩
  · exact ⟨_, .prepend, rfl⟩
  · exact ⟨_, .prepend, rfl⟩
  · exact ⟨_, .color, rfl⟩
  · exact ⟨_, .evaluate, rfl⟩
  · exact ⟨_, .evaluate, rfl⟩
  · exact ⟨_, .load, rfl⟩
  · exact ⟨_, .load, rfl⟩
  · exact ⟨_, .write, rfl⟩
  · exact ⟨_, .write, rfl⟩

theorem find_plain {n : String} {k : Cmd} (h : Plain n k) :
    ∃ op, Alone op k ∧ (evaluator n.toList : Run D E P W Op) = pure op := by
  cases h
  · exact ⟨_, .help, rfl⟩
  · exact ⟨_, .help, rfl⟩
  · exact ⟨_, .interactive, rfl⟩
  · exact ⟨_, .interactive, rfl⟩
  · exact ⟨_, .directories, rfl⟩
  · exact ⟨_, .version, rfl⟩
  · exact ⟨_, .version, rfl⟩

theorem find_unknown {n : Arg} (h : Unknown n) : (evaluator n : Run D E P W Op) = throw (.unknown n) := by
  obtain ⟨h1, h2⟩ := h
  have : options.find? (named n) = none := by
    rw [List.find?_eq_none]
    simp only [options, List.forall_mem_cons, named, List.not_mem_nil, false_implies, implies_true, and_true, Bool.or_eq_true,
      decide_eq_true_eq, not_or, Bool.false_eq_true, not_false_eq_true, true_and]
    exact ⟨⟨h1 _ _ .A, h1 _ _ .append⟩, ⟨h1 _ _ .D, h1 _ _ .feature⟩, ⟨h1 _ _ .I, h1 _ _ .prepend⟩, h1 _ _ .color,
      ⟨h1 _ _ .e, h1 _ _ .evaluate⟩, ⟨h2 _ _ .h, h2 _ _ .help⟩, ⟨h2 _ _ .i, h2 _ _ .interactive⟩,
      ⟨h1 _ _ .l, h1 _ _ .load⟩, h2 _ _ .directories, ⟨h2 _ _ .v, h2 _ _ .version⟩, ⟨h1 _ _ .w, h1 _ _ .write⟩⟩
  simp only [evaluator, this]

theorem operate_takes {op : Op} {k : Arg → Cmd} (h : Takes op k) (H : Host D E P W) {r : Run D E P W D}
    {s s' : Arg × List Arg} {t : Arg} (hr : StateT.run r s = (do let x ← H.read t; pure (x, s'))) :
    StateT.run (operate H r op) s = (do (k t).perform H; pure ((), s')) := by
  have hl : ∀ {A : Type} (m : M D E P W A), StateT.run (liftM m : Run D E P W A) s' = (do let a ← m; pure (a, s')) :=
    fun _ => rfl
  cases h <;> simp only [operate, Cmd.perform, StateT.run_bind, hr, hl, bind_assoc, pure_bind]
  all_goals first
    | rfl
    | (congr; funext x; cases H.boolean x <;> rfl)

theorem operate_alone {op : Op} {k : Cmd} (h : Alone op k) (H : Host D E P W) {r : Run D E P W D}
    {s : Arg × List Arg} : StateT.run (operate H r op) s = (do k.perform H; pure ((), s)) := by
  cases h <;> rfl

theorem readNext_some (H : Host D E P W) (cur t : Arg) (args : List Arg) :
    StateT.run (readNext H) (cur, t :: args) = (do let x ← H.read t; pure (x, (t, args))) := rfl

theorem operate_missing {op : Op} {k : Arg → Cmd} (h : Takes op k) (H : Host D E P W) (cur : Arg) :
    StateT.run (operate H (readNext H) op) (cur, []) = throw (.missing cur) := by
  cases h <;> rfl

theorem run_append (H : Host D E P W) (ks ks' : List Cmd) :
    run H (ks ++ ks') = (do run H ks; run H ks') := by
  induction ks with
  | nil => simp [run]
  | cons k ks ih => simp [run, ih]

theorem letters_run (H : Host D E P W) {cs : List Char} {args rest : List Arg} {ks : List Cmd}
    (h : Letters cs args ks rest) (cur : Arg) :
    ∃ cur', StateT.run (letters H cs) (cur, args) = (do run H ks; pure ((), (cur', rest))) := by
  induction h generalizing cur with
  | nil => exact ⟨cur, by simp [letters, run]⟩
  | plain e hp _ ih =>
    obtain ⟨cur', hc⟩ := ih cur
    obtain ⟨op, ho, he⟩ := find_plain (D := D) (E := E) (P := P) (W := W) hp
    refine ⟨cur', ?_⟩
    simp only [letters, e, he, pure_bind, StateT.run_bind, operate_alone ho, bind_assoc, hc, run]
  | operand e hp _ ih =>
    rename_i t _ _ _ _
    obtain ⟨cur', hc⟩ := ih t
    obtain ⟨op, ho, he⟩ := find_operand (D := D) (E := E) (P := P) (W := W) hp
    refine ⟨cur', ?_⟩
    simp only [letters, e, he, pure_bind, StateT.run_bind, operate_takes ho H (readNext_some H _ _ _), bind_assoc, hc, run]

theorem letters_stop (H : Host D E P W) {cur : Arg} {cs : List Char} {args : List Arg} {ks : List Cmd}
    {e : Thrown D E} (h : LettersStop cur cs args ks e) :
    StateT.run (letters H cs) (cur, args) = (do run H ks; throw e) := by
  induction h with
  | unknown h =>
    simp only [letters, find_unknown h, run, pure_bind]
    rfl
  | missing e hp =>
    obtain ⟨op, ho, he⟩ := find_operand (D := D) (E := E) (P := P) (W := W) hp
    simp only [letters, e, he, pure_bind, StateT.run_bind, operate_missing ho, run]
    rfl
  | plain e hp _ ih =>
    obtain ⟨op, ho, he⟩ := find_plain (D := D) (E := E) (P := P) (W := W) hp
    simp only [letters, e, he, pure_bind, StateT.run_bind, operate_alone ho, bind_assoc, ih, run]
  | operand e hp _ ih =>
    obtain ⟨op, ho, he⟩ := find_operand (D := D) (E := E) (P := P) (W := W) hp
    simp only [letters, e, he, pure_bind, StateT.run_bind, operate_takes ho H (readNext_some H _ _ _), bind_assoc, ih, run]

/-! ### One argument -/

theorem step_of {H : Host D E P W} {a : Arg} {rest : List Arg} {g : Groups} (h : regexMatch a = some g) :
    StateT.run (step H) (a, rest) = StateT.run (
      if g.short.length ≠ 0 then letters H g.short
      else if g.operand.length ≠ 0 then do
        let op ← evaluator g.name
        operate H (H.read g.operand) op
      else if g.name.length ≠ 0 then do
        let op ← evaluator g.name
        operate H (readNext H) op
      else pure ()) (a, rest) := by
  simp only [step, StateT.run_bind, StateT.run_get, pure_bind, h]

theorem step_file {H : Host D E P W} {a : Arg} {rest : List Arg} (h : ¬OptionLike a) :
    StateT.run (step H) (a, rest) = (do (Cmd.file a).perform H; pure ((), (a, rest))) := by
  simp only [step, StateT.run_bind, StateT.run_get, pure_bind, not_optionLike_match h]
  rfl

theorem letters_word {cs : List Char} {args rest : List Arg} {ks : List Cmd} (h : Letters cs args ks rest) :
    ∀ c ∈ cs, Word c := by
  induction h with
  | nil => simp
  | plain e hp _ ih =>
    simp only [List.forall_mem_cons]
    refine ⟨?_, ih⟩
    cases hp <;> simp at e <;> subst e <;> simp [Word]
  | operand e hp _ ih =>
    simp only [List.forall_mem_cons]
    refine ⟨?_, ih⟩
    cases hp <;> simp at e <;> subst e <;> simp [Word]

theorem step_short {H : Host D E P W} {cs : List Char} {args : List Arg} (h0 : cs ≠ [])
    (h : ∀ c ∈ cs, Word c) :
    StateT.run (step H) ('-' :: cs, args) = StateT.run (letters H cs) ('-' :: cs, args) := by
  rw [step_of (short_match h0 h), if_pos]
  simpa using h0

theorem longName_ne {n : Arg} (h : LongName n) : n.length ≠ 0 := by
  obtain ⟨c, d, rest, rfl, _⟩ := h
  simp

theorem step_long {H : Host D E P W} {n : Arg} {args : List Arg} (h : LongName n) :
    StateT.run (step H) (long n, args) =
      StateT.run (do let op ← evaluator n; operate H (readNext H) op) (long n, args) := by
  rw [step_of (long_match h), if_neg (by simp), if_neg (by simp), if_pos (longName_ne h)]

theorem step_longEq {H : Host D E P W} {n t : Arg} {args : List Arg} (h : LongName n) (ht : OneLine t)
    (h0 : t ≠ []) : StateT.run (step H) (longEq n t, args) =
      StateT.run (do let op ← evaluator n; operate H (H.read t) op) (longEq n t, args) := by
  rw [step_of (longEq_match h ht), if_neg (by simp), if_pos (by simpa using h0)]

theorem step_longEmpty {H : Host D E P W} {n : Arg} {args : List Arg} (h : LongName n) :
    StateT.run (step H) (longEq n [], args) =
      StateT.run (do let op ← evaluator n; operate H (readNext H) op) (longEq n [], args) := by
  rw [step_of (longEq_match h (by simp [OneLine])), if_neg (by simp), if_neg (by simp), if_pos (longName_ne h)]

theorem letters_length {cs : List Char} {args rest : List Arg} {ks : List Cmd} (h : Letters cs args ks rest) :
    ∃ part, args = part ++ rest := by
  induction h with
  | nil => exact ⟨[], rfl⟩
  | plain _ _ _ ih => exact ih
  | operand _ _ _ ih => obtain ⟨part, rfl⟩ := ih; exact ⟨_ :: part, rfl⟩

theorem letters_more {cs : List Char} {args rest more : List Arg} {ks : List Cmd} (h : Letters cs args ks rest) :
    Letters cs (args ++ more) ks (rest ++ more) := by
  induction h with
  | nil => exact .nil
  | plain e hp _ ih => exact .plain e hp ih
  | operand e hp _ ih => exact .operand e hp ih

/-! ### All arguments -/

theorem loop_parses (H : Host D E P W) {args : List Arg} {ks : List Cmd} (h : Parses args ks) (more : List Arg)
    {fuel : Nat} (hf : (args ++ more).length ≤ fuel) :
    ∃ fuel', more.length ≤ fuel' ∧ loop H fuel (args ++ more) = (do run H ks; loop H fuel' more) := by
  induction h generalizing fuel with
  | nil => exact ⟨fuel, by simpa using hf, by simp [run]⟩
  | file ha _ ih =>
    obtain ⟨fuel, rfl⟩ : ∃ f, fuel = f + 1 := ⟨fuel - 1, by simp at hf; omega⟩
    obtain ⟨f', h1, h2⟩ := ih (fuel := fuel) (by simp at hf ⊢; omega)
    exact ⟨f', h1, by simp only [List.cons_append, loop, step_file ha, bind_assoc, pure_bind, h2, run]⟩
  | short h0 hl _ ih =>
    rename_i cs _ _ _ _ _
    obtain ⟨fuel, rfl⟩ : ∃ f, fuel = f + 1 := ⟨fuel - 1, by simp at hf; omega⟩
    obtain ⟨part, rfl⟩ := letters_length hl
    obtain ⟨f', h1, h2⟩ := ih (fuel := fuel) (by simp at hf ⊢; omega)
    obtain ⟨cur', hc⟩ := letters_run H (letters_more (more := more) hl) ('-' :: cs)
    exact ⟨f', h1, by
      simp only [List.cons_append, loop, step_short h0 (letters_word hl), hc, bind_assoc, pure_bind, h2, run_append]⟩
  | plain hn hp _ ih =>
    obtain ⟨fuel, rfl⟩ : ∃ f, fuel = f + 1 := ⟨fuel - 1, by simp at hf; omega⟩
    obtain ⟨f', h1, h2⟩ := ih (fuel := fuel) (by simp at hf ⊢; omega)
    obtain ⟨op, ho, he⟩ := find_plain (D := D) (E := E) (P := P) (W := W) hp
    exact ⟨f', h1, by
      simp only [List.cons_append, loop, step_long hn, he, pure_bind, operate_alone ho, bind_assoc, h2, run]⟩
  | operand hn hp _ ih =>
    obtain ⟨fuel, rfl⟩ : ∃ f, fuel = f + 1 := ⟨fuel - 1, by simp at hf; omega⟩
    obtain ⟨f', h1, h2⟩ := ih (fuel := fuel) (by simp at hf ⊢; omega)
    obtain ⟨op, ho, he⟩ := find_operand (D := D) (E := E) (P := P) (W := W) hp
    exact ⟨f', h1, by
      simp only [List.cons_append, loop, step_long hn, he, pure_bind, operate_takes ho H (readNext_some H _ _ _),
        bind_assoc, h2, run]⟩
  | operandEq hn hp h0 ht _ ih =>
    obtain ⟨fuel, rfl⟩ : ∃ f, fuel = f + 1 := ⟨fuel - 1, by simp at hf; omega⟩
    obtain ⟨f', h1, h2⟩ := ih (fuel := fuel) (by simp at hf ⊢; omega)
    obtain ⟨op, ho, he⟩ := find_operand (D := D) (E := E) (P := P) (W := W) hp
    refine ⟨f', h1, ?_⟩
    simp only [List.cons_append, loop, step_longEq hn ht h0, he, pure_bind]
    rw [operate_takes ho H (r := liftM (H.read _)) (s' := (longEq _ _, _)) rfl]
    simp only [bind_assoc, pure_bind, h2, run]
  | plainEq hn hp ht _ ih =>
    rename_i t _ _ _
    obtain ⟨fuel, rfl⟩ : ∃ f, fuel = f + 1 := ⟨fuel - 1, by simp at hf; omega⟩
    obtain ⟨f', h1, h2⟩ := ih (fuel := fuel) (by simp at hf ⊢; omega)
    obtain ⟨op, ho, he⟩ := find_plain (D := D) (E := E) (P := P) (W := W) hp
    refine ⟨f', h1, ?_⟩
    by_cases h0 : t = []
    · subst h0
      simp only [List.cons_append, loop, step_longEmpty hn, he, pure_bind, operate_alone ho, bind_assoc, h2, run]
    · simp only [List.cons_append, loop, step_longEq hn ht h0, he, pure_bind, operate_alone ho, bind_assoc, h2, run]
  | operandEmpty hn hp _ ih =>
    obtain ⟨fuel, rfl⟩ : ∃ f, fuel = f + 1 := ⟨fuel - 1, by simp at hf; omega⟩
    obtain ⟨f', h1, h2⟩ := ih (fuel := fuel) (by simp at hf ⊢; omega)
    obtain ⟨op, ho, he⟩ := find_operand (D := D) (E := E) (P := P) (W := W) hp
    exact ⟨f', h1, by
      simp only [List.cons_append, loop, step_longEmpty hn, he, pure_bind, operate_takes ho H (readNext_some H _ _ _),
        bind_assoc, h2, run]⟩

theorem loop_wrong (H : Host D E P W) {args : List Arg} {ks : List Cmd} {e : Thrown D E} (h : Wrong args ks e)
    {fuel : Nat} (hf : args.length ≤ fuel) : loop H fuel args = (do run H ks; throw e) := by
  cases h with
  | short h0 hw hl =>
    obtain ⟨fuel, rfl⟩ : ∃ f, fuel = f + 1 := ⟨fuel - 1, by simp at hf; omega⟩
    simp only [loop, step_short h0 hw, letters_stop H hl, bind_assoc]
    rfl
  | unknown hn hu =>
    obtain ⟨fuel, rfl⟩ : ∃ f, fuel = f + 1 := ⟨fuel - 1, by simp at hf; omega⟩
    simp only [loop, step_long hn, find_unknown hu, run, pure_bind]
    rfl
  | unknownEq hn ht hu =>
    rename_i n t args
    obtain ⟨fuel, rfl⟩ : ∃ f, fuel = f + 1 := ⟨fuel - 1, by simp at hf; omega⟩
    by_cases h0 : t = []
    · subst h0
      simp only [loop, step_longEmpty hn, find_unknown hu, run, pure_bind]
      rfl
    · simp only [loop, step_longEq hn ht h0, find_unknown hu, run, pure_bind]
      rfl
  | missing hn hp =>
    obtain ⟨fuel, rfl⟩ : ∃ f, fuel = f + 1 := ⟨fuel - 1, by simp at hf; omega⟩
    obtain ⟨op, ho, he⟩ := find_operand (D := D) (E := E) (P := P) (W := W) hp
    simp only [loop, step_long hn, he, pure_bind, operate_missing ho, run]
    rfl
  | missingEq hn hp =>
    obtain ⟨fuel, rfl⟩ : ∃ f, fuel = f + 1 := ⟨fuel - 1, by simp at hf; omega⟩
    obtain ⟨op, ho, he⟩ := find_operand (D := D) (E := E) (P := P) (W := W) hp
    simp only [loop, step_longEmpty hn, he, pure_bind, operate_missing ho, run]
    rfl

theorem parses_append {p q : List Arg} {ks ks' : List Cmd} (h : Parses p ks) (h' : Parses q ks') :
    Parses (p ++ q) (ks ++ ks') := by
  induction h with
  | nil => exact h'
  | file ha _ ih => exact .file ha ih
  | short h0 hl _ ih =>
    rw [List.append_assoc]
    exact .short h0 (letters_more hl) ih
  | plain hn hp _ ih => exact .plain hn hp ih
  | operand hn hp _ ih => exact .operand hn hp ih
  | operandEq hn hp h0 ht _ ih => exact .operandEq hn hp h0 ht ih
  | plainEq hn hp ht _ ih => exact .plainEq hn hp ht ih
  | operandEmpty hn hp _ ih => exact .operandEmpty hn hp ih

theorem known_or (n : Arg) : Unknown n ∨ (∃ s k, n = String.toList s ∧ WithOperand s k) ∨
    (∃ s k, n = String.toList s ∧ Plain s k) := by
  by_cases h1 : ∃ s k, n = String.toList s ∧ WithOperand s k
  · exact Or.inr (Or.inl h1)
  · by_cases h2 : ∃ s k, n = String.toList s ∧ Plain s k
    · exact Or.inr (Or.inr h2)
    · exact Or.inl ⟨fun s k hk e => h1 ⟨s, k, e, hk⟩, fun s k hk e => h2 ⟨s, k, e, hk⟩⟩

theorem letters_total (cs : List Char) (args : List Arg) (cur : Arg) :
    (∃ ks rest, Letters cs args ks rest) ∨ (∃ ks, ∃ e : Thrown D E, LettersStop cur cs args ks e) := by
  induction cs generalizing args cur with
  | nil => exact Or.inl ⟨_, _, .nil⟩
  | cons c cs ih =>
    rcases known_or [c] with h | ⟨s, k, e, h⟩ | ⟨s, k, e, h⟩
    · exact Or.inr ⟨_, _, .unknown h⟩
    · cases args with
      | nil => exact Or.inr ⟨_, _, .missing e h⟩
      | cons t args =>
        rcases ih args t with ⟨ks, rest, hl⟩ | ⟨ks, e', hl⟩
        · exact Or.inl ⟨_, _, .operand e h hl⟩
        · exact Or.inr ⟨_, _, .operand e h hl⟩
    · rcases ih args cur with ⟨ks, rest, hl⟩ | ⟨ks, e', hl⟩
      · exact Or.inl ⟨_, _, .plain e h hl⟩
      · exact Or.inr ⟨_, _, .plain e h hl⟩

theorem first_total (a : Arg) (args : List Arg) :
    (∃ p q ks, a :: args = p ++ q ∧ p ≠ [] ∧ Parses p ks) ∨ (∃ ks, ∃ e : Thrown D E, Wrong (a :: args) ks e) := by
  by_cases ha : OptionLike a
  · cases ha with
    | long hn =>
      rename_i n
      rcases known_or n with h | ⟨s, k, rfl, h⟩ | ⟨s, k, rfl, h⟩
      · exact Or.inr ⟨_, _, .unknown hn h⟩
      · cases args with
        | nil => exact Or.inr ⟨_, _, .missing hn h⟩
        | cons t args => exact Or.inl ⟨[_, t], args, _, rfl, by simp, .operand hn h .nil⟩
      · exact Or.inl ⟨[_], args, _, rfl, by simp, .plain hn h .nil⟩
    | longEq hn ht =>
      rename_i n t
      rcases known_or n with h | ⟨s, k, rfl, h⟩ | ⟨s, k, rfl, h⟩
      · exact Or.inr ⟨_, _, .unknownEq hn ht h⟩
      · by_cases h0 : t = []
        · subst h0
          cases args with
          | nil => exact Or.inr ⟨_, _, .missingEq hn h⟩
          | cons t args => exact Or.inl ⟨[_, t], args, _, rfl, by simp, .operandEmpty hn h .nil⟩
        · exact Or.inl ⟨[_], args, _, rfl, by simp, .operandEq hn h h0 ht .nil⟩
      · exact Or.inl ⟨[_], args, _, rfl, by simp, .plainEq hn h ht .nil⟩
    | short h0 hw =>
      rename_i cs
      rcases letters_total (D := D) (E := E) cs args ('-' :: cs) with ⟨ks, rest, hl⟩ | ⟨ks, e, hl⟩
      · obtain ⟨part, rfl⟩ := letters_length hl
        have hl' : ∀ {cs : List Char} {args : List Arg} {ks : List Cmd} {rest : List Arg}, Letters cs args ks rest →
            ∀ part, args = part ++ rest → Letters cs part ks [] := by
          intro cs args ks rest h
          induction h with
          | nil => intro part e; rw [List.self_eq_append_left.1 e]; exact .nil
          | plain e hp _ ih => exact fun part e' => .plain e hp (ih part e')
          | operand e hp hl ih =>
            intro part e'
            cases part with
            | nil =>
              obtain ⟨part', rfl⟩ := letters_length hl
              have := congrArg List.length e'
              simp at this
              omega
            | cons t' part =>
              simp only [List.cons_append, List.cons.injEq] at e'
              obtain ⟨rfl, e'⟩ := e'
              exact .operand e hp (ih part e')
        have := Parses.short h0 (hl' hl part rfl) .nil
        exact Or.inl ⟨_, rest, _, rfl, by simp, this⟩
      · exact Or.inr ⟨_, _, .short h0 hw hl⟩
  · exact Or.inl ⟨[a], args, _, rfl, by simp, .file ha .nil⟩

/-! ### C80 -/

/-- **C80 (every command line).** The arguments are commands, all of them or up to a first wrong
argument. -/
theorem C80_total (args : List Arg) :
    (∃ ks, Parses args ks) ∨
    (∃ p q ks ks', ∃ e : Thrown D E, args = p ++ q ∧ Parses p ks ∧ Wrong q ks' e) := by
  induction hl : args.length using Nat.strong_induction_on generalizing args with
  | _ n ih =>
    cases args with
    | nil => exact Or.inl ⟨_, .nil⟩
    | cons a args =>
      rcases first_total (D := D) (E := E) a args with ⟨p, q, ks, e, hp, h⟩ | ⟨ks, e, h⟩
      · have hq : q.length < n := by
          have := congrArg List.length e
          have : 0 < p.length := List.length_pos_iff.2 hp
          simp at *
          omega
        rcases ih _ hq q rfl with ⟨ks', h'⟩ | ⟨p', q', ks1, ks2, e', rfl, h1, h2⟩
        · exact Or.inl ⟨_, e ▸ parses_append h h'⟩
        · exact Or.inr ⟨p ++ p', q', _, _, e', by rw [e, List.append_assoc], parses_append h h1, h2⟩
      · exact Or.inr ⟨[], _, _, _, _, rfl, .nil, h⟩

/-- **C80 (commands).** A program called with arguments that are commands performs them, in order, until
one of them throws. The name of the program does not matter. -/
theorem C80_run (H : Host D E P W) (program : Arg) {args : List Arg} {ks : List Cmd} (h : Parses args ks) :
    configure H (program :: args) = some (run H ks) := by
  obtain ⟨f', _, e⟩ := loop_parses H h [] (fuel := args.length) (by simp)
  rw [List.append_nil] at e
  rw [configure, e]
  simp [loop]

/-- **C80 (wrong arguments).** An unknown option and a missing operand are errors; the commands before
are performed, nothing after. -/
theorem C80_stop (H : Host D E P W) (program : Arg) {p q : List Arg} {ks ks' : List Cmd} {e : Thrown D E}
    (h : Parses p ks) (h' : Wrong q ks' e) :
    configure H (program :: (p ++ q)) = some (do run H (ks ++ ks'); throw e) := by
  obtain ⟨f', hf, e1⟩ := loop_parses H h q (fuel := (p ++ q).length) (le_refl _)
  rw [configure, e1, loop_wrong H h' hf, run_append, bind_assoc]

theorem loop_fuel (H : Host D E P W) {args : List Arg} {f f' : Nat} (h : args.length ≤ f) (h' : args.length ≤ f') :
    loop H f args = loop H f' args := by
  rcases C80_total (D := D) (E := E) args with ⟨ks, hp⟩ | ⟨p, q, ks, ks', e, rfl, hp, hw⟩
  · obtain ⟨g, _, e⟩ := loop_parses H hp [] (fuel := f) (by simpa using h)
    obtain ⟨g', _, e'⟩ := loop_parses H hp [] (fuel := f') (by simpa using h')
    rw [List.append_nil] at e e'
    rw [e, e']
    simp [loop]
  · obtain ⟨g, hg, e⟩ := loop_parses H hp q (fuel := f) h
    obtain ⟨g', hg', e'⟩ := loop_parses H hp q (fuel := f') h'
    rw [e, e', loop_wrong H hw hg, loop_wrong H hw hg']

/-- Commands first, then the other arguments, right or wrong. -/
theorem configure_prefix (H : Host D E P W) (program : Arg) {p : List Arg} {ks : List Cmd} (h : Parses p ks)
    (args : List Arg) :
    ∃ m, configure H (program :: args) = some m ∧
      configure H (program :: (p ++ args)) = some (do run H ks; m) := by
  obtain ⟨f', hf, e1⟩ := loop_parses H h args (fuel := (p ++ args).length) (le_refl _)
  exact ⟨_, rfl, by rw [configure, e1, loop_fuel H hf (le_refl _)]⟩

theorem configure_congr (H : Host D E P W) (program : Arg) {p p' : List Arg} {ks : List Cmd} (h : Parses p ks)
    (h' : Parses p' ks) (args : List Arg) :
    configure H (program :: (p ++ args)) = configure H (program :: (p' ++ args)) := by
  obtain ⟨m, h1, h2⟩ := configure_prefix H program h args
  obtain ⟨m', h3, h4⟩ := configure_prefix H program h' args
  rw [h1] at h3
  rw [h2, h4, Option.some.inj h3]

/-- **C80 (`=`).** `--name=text` is `--name text`, for every text of one line that is not empty, whatever
follows. -/
theorem C80_equals_partial (H : Host D E P W) (program : Arg) {n : String} {k : Arg → Cmd} (hn : LongName n.toList)
    (hk : WithOperand n k) {t : Arg} (h0 : t ≠ []) (ht : OneLine t) (args : List Arg) :
    configure H (program :: longEq n.toList t :: args) = configure H (program :: long n.toList :: t :: args) :=
  configure_congr H program (.operandEq hn hk h0 ht .nil) (.operand hn hk .nil) args

/-- **C80 (letters).** A letter is the same as the long name. -/
theorem C80_short_long (H : Host D E P W) (program : Arg) {c : Char} {s n : String} (hc : [c] = s.toList)
    (hn : LongName n.toList) (args : List Arg) :
    (∀ k, WithOperand s k → WithOperand n k → ∀ t,
      configure H (program :: ['-', c] :: t :: args) = configure H (program :: long n.toList :: t :: args)) ∧
    (∀ k, Plain s k → Plain n k →
      configure H (program :: ['-', c] :: args) = configure H (program :: long n.toList :: args)) := by
  constructor
  · intro k h1 h2 t
    exact configure_congr H program (p := [['-', c], t]) (ks := [k t] ++ [])
      (.short (by simp) (.operand hc h1 .nil) .nil) (.operand hn h2 .nil) args
  · intro k h1 h2
    exact configure_congr H program (p := [['-', c]]) (ks := [k] ++ [])
      (.short (by simp) (.plain hc h1 .nil) .nil) (.plain hn h2 .nil) args

/-- **C80 (library directories).** The directories of `-A` come after the standard ones, in order; those
of `-I` come before, the last one first. -/
theorem C80_directories (H : Host D E P W) (program : Arg) (f : Arg → P)
    (hf : ∀ t, (do H.path (← H.read t)) = (pure (f t) : M D E P W P)) (ts us : List Arg) (σ : State D P W) :
    ∃ m, configure H (program :: ((ts.flatMap fun t => ["-A".toList, t]) ++ us.flatMap fun u => ["-I".toList, u])) =
        some m ∧
      (ExceptT.run m).run σ =
        (.ok (), { σ with directories := (us.map f).reverse ++ σ.directories ++ ts.map f }) := by
  have hA : ∀ ts : List Arg, Parses (ts.flatMap fun t => ["-A".toList, t]) (ts.map .append) := by
    intro ts
    induction ts with
    | nil => exact .nil
    | cons t ts ih => exact .short (ks := [.append t]) (by simp) (.operand (n := "A") rfl .A .nil) ih
  have hI : ∀ ts : List Arg, Parses (ts.flatMap fun t => ["-I".toList, t]) (ts.map .prepend) := by
    intro ts
    induction ts with
    | nil => exact .nil
    | cons t ts ih => exact .short (ks := [.prepend t]) (by simp) (.operand (n := "I") rfl .I .nil) ih
  have hpA : ∀ t, (Cmd.append t).perform H = (modify fun σ => { σ with directories := σ.directories ++ [f t] }) := by
    intro t
    have := congrArg (fun m : M D E P W P => m >>= fun p =>
      (modify fun σ => { σ with directories := σ.directories ++ [p] } : M D E P W Unit)) (hf t)
    simpa [Cmd.perform] using this
  have hpI : ∀ t, (Cmd.prepend t).perform H = (modify fun σ => { σ with directories := f t :: σ.directories }) := by
    intro t
    have := congrArg (fun m : M D E P W P => m >>= fun p =>
      (modify fun σ => { σ with directories := p :: σ.directories } : M D E P W Unit)) (hf t)
    simpa [Cmd.perform] using this
  have rA : ∀ (ts : List Arg) (σ : State D P W), (ExceptT.run (run H (ts.map .append))).run σ =
      (.ok (), { σ with directories := σ.directories ++ ts.map f }) := by
    intro ts
    induction ts with
    | nil => intro σ; simp [run]; rfl
    | cons t ts ih =>
      intro σ
      simp only [List.map_cons, run, hpA]
      have := ih { σ with directories := σ.directories ++ [f t] }
      simp only [List.append_assoc, List.singleton_append] at this
      exact this
  have rI : ∀ (ts : List Arg) (σ : State D P W), (ExceptT.run (run H (ts.map .prepend))).run σ =
      (.ok (), { σ with directories := (ts.map f).reverse ++ σ.directories }) := by
    intro ts
    induction ts with
    | nil => intro σ; simp [run]; rfl
    | cons t ts ih =>
      intro σ
      simp only [List.map_cons, run, hpI]
      have := ih { σ with directories := f t :: σ.directories }
      simp only [List.reverse_cons, List.append_assoc, List.singleton_append]
      exact this
  refine ⟨_, C80_run H program (parses_append (hA ts) (hI us)), ?_⟩
  have e : ∀ (m m' : M D E P W Unit) (τ : State D P W), (ExceptT.run m).run σ = (.ok (), τ) →
      (ExceptT.run (do m; m')).run σ = (ExceptT.run m').run τ := by
    intro m m' τ h
    simp only [ExceptT.run_bind, StateT.run_bind, h, pure_bind]
    rfl
  rw [run_append, e _ _ _ (rA ts σ), rI]
  simp

/-! ### `main` -/

/-- What a computation gives, started in a state. -/
def result {A : Type} (m : M D E P W A) (σ : State D P W) : Except (Thrown D E) A × State D P W :=
  (ExceptT.run m).run σ

theorem result_bind_ok {A B : Type} {m : M D E P W A} {f : A → M D E P W B} {σ τ : State D P W} {a : A}
    (h : result m σ = (.ok a, τ)) : result (m >>= f) σ = result (f a) τ := by
  simp only [result, ExceptT.run_bind, StateT.run_bind] at h ⊢
  rw [h]
  rfl

theorem result_bind_error {A B : Type} {m : M D E P W A} {f : A → M D E P W B} {σ τ : State D P W}
    {e : Thrown D E} (h : result m σ = (.error e, τ)) : result (m >>= f) σ = (.error e, τ) := by
  simp only [result, ExceptT.run_bind, StateT.run_bind] at h ⊢
  rw [h]
  rfl

variable {H : Host D E P W} {imports : M D E P W Unit} {evaluate : D → M D E P W Unit}
  {report : Thrown D E → State D P W → State D P W} {inputs : List (Except (Thrown D E) D)} {program : Arg}

/-- The exit status that belongs to something thrown, and the state at the end. -/
def Ends (report : Thrown D E → State D P W → State D P W) (e : Thrown D E) (τ : State D P W)
    (r : Int × State D P W) : Prop :=
  (∀ n, e = .status n → r = (n, τ)) ∧ ((∀ n, e ≠ .status n) → r = (1, report e τ))

theorem ends_of {m : M D E P W Unit} {σ τ : State D P W} {e : Thrown D E} (h : result m σ = (.error e, τ)) :
    Ends report e τ (match (ExceptT.run m).run σ with
      | (.ok (), τ) => (0, τ)
      | (.error (.status n), τ) => (n, τ)
      | (.error e, τ) => (1, report e τ)) := by
  simp only [result] at h
  rw [h]
  constructor
  · rintro n rfl
    rfl
  · intro hn
    cases e with
    | status n => exact absurd rfl (hn n)
    | _ => rfl

theorem ends_ok {m : M D E P W Unit} {σ τ : State D P W} (h : result m σ = (.ok (), τ)) :
    (match (ExceptT.run m).run σ with
      | (.ok (), τ) => (0, τ)
      | (.error (.status n), τ) => (n, τ)
      | (.error e, τ) => (1, report e τ)) = ((0 : Int), τ) := by
  simp only [result] at h
  rw [h]

/-- **C80 (exit status).** When all commands end normally and none of them asks for the REPL, the status is
zero and the state is that after the commands.  When a command throws, the commands after it are not
performed; the status is the one given to emergency-exit, otherwise the error is reported and the
status is one.  The same when an argument is wrong. -/
theorem C80_exit {args : List Arg} {ks : List Cmd} (h : Parses args ks) (σ : State D P W) :
    ∃ f, main H imports evaluate report inputs (program :: args) = some f ∧
      (∀ τ, result (run H ks) σ = (.ok (), τ) → τ.interactive = false → f σ = (0, τ)) ∧
      (∀ e τ, result (run H ks) σ = (.error e, τ) → Ends report e τ (f σ)) := by
  refine ⟨_, by rw [main, C80_run H program h]; rfl, fun τ h1 h2 => ?_, fun e τ h1 => ?_⟩
  · have e := result_bind_ok (f := fun _ => (do
      if (← getThe (State D P W)).interactive then do
        imports
        repl evaluate (fun e => modifyThe (State D P W) (report e)) inputs : M D E P W Unit)) h1
    have e2 : result (do
      if (← getThe (State D P W)).interactive then do
        imports
        repl evaluate (fun e => modifyThe (State D P W) (report e)) inputs : M D E P W Unit) τ = (.ok (), τ) := by
      rw [result_bind_ok (m := getThe (State D P W)) (a := τ) (τ := τ) rfl, h2]
      rfl
    exact ends_ok (e.trans e2)
  · exact ends_of (result_bind_error h1)

/-- **C80 (exit status of wrong command lines).** -/
theorem C80_exit_wrong {p q : List Arg} {ks ks' : List Cmd} {e : Thrown D E} (h : Parses p ks) (h' : Wrong q ks' e)
    (σ : State D P W) :
    ∃ f, main H imports evaluate report inputs (program :: (p ++ q)) = some f ∧
      (∀ τ, result (run H (ks ++ ks')) σ = (.ok (), τ) → f σ = (1, report e τ)) ∧
      (∀ e' τ, result (run H (ks ++ ks')) σ = (.error e', τ) → Ends report e' τ (f σ)) := by
  refine ⟨_, by rw [main, C80_stop H program h h']; rfl, fun τ h1 => ?_, fun e' τ h1 => ?_⟩
  · have h2 : result (do run H (ks ++ ks'); throw e : M D E P W Unit) σ = (.error e, τ) := by
      rw [result_bind_ok h1]
      rfl
    refine (ends_of (result_bind_error h2)).2 fun n hn => ?_
    subst hn
    have : ∀ {cur : Arg} {cs : List Char} {args : List Arg} {ks : List Cmd} {e : Thrown D E},
        LettersStop cur cs args ks e → e ≠ .status n := by
      intro cur cs args ks e h
      induction h <;> simp_all
    cases h' with
    | short _ _ hl => exact this hl rfl
  · exact ends_of (result_bind_error (result_bind_error h1))

/-- **C80 (REPL).** When the commands end normally and the REPL was asked for, it starts in the state
after the commands, after the imports. -/
theorem C80_interactive {args : List Arg} {ks : List Cmd} (h : Parses args ks) {σ τ υ : State D P W}
    (h1 : result (run H ks) σ = (.ok (), τ)) (h2 : τ.interactive = true) (h3 : result imports τ = (.ok (), υ)) :
    ∃ f, main H imports evaluate report inputs (program :: args) = some f ∧
      (∀ φ, result (repl evaluate (fun e => modifyThe (State D P W) (report e)) inputs) υ = (.ok (), φ) →
        f σ = (0, φ)) ∧
      (∀ e φ, result (repl evaluate (fun e => modifyThe (State D P W) (report e)) inputs) υ = (.error e, φ) →
        Ends report e φ (f σ)) := by
  have e0 : result (do
      run H ks
      if (← getThe (State D P W)).interactive then do
        imports
        repl evaluate (fun e => modifyThe (State D P W) (report e)) inputs : M D E P W Unit) σ =
      result (repl evaluate (fun e => modifyThe (State D P W) (report e)) inputs) υ := by
    rw [result_bind_ok h1, result_bind_ok (m := getThe (State D P W)) (a := τ) (τ := τ) rfl, h2, if_pos rfl, result_bind_ok h3]
  refine ⟨_, by rw [main, C80_run H program h]; rfl, fun φ hφ => ?_, fun e φ hφ => ?_⟩
  · exact ends_ok (e0.trans hφ)
  · exact ends_of (e0.trans hφ)

/-- **C80 (REPL).** It evaluates one datum after the other.  A read error or an error of an evaluation is
reported, and the next datum is read in the state after that; only emergency-exit, or something that
is not an error of the language, ends the REPL. -/
theorem C80_repl (rep : Thrown D E → M D E P W Unit) (input : Except (Thrown D E) D) (σ : State D P W) :
    (∀ x τ, input = .ok x → result (evaluate x) σ = (.ok (), τ) →
      result (repl evaluate rep (input :: inputs)) σ = result (repl evaluate rep inputs) τ) ∧
    (∀ e τ, ((input = .error e ∧ τ = σ) ∨ (∃ x, input = .ok x ∧ result (evaluate x) σ = (.error e, τ))) →
      ((∃ n, e = .status n) ∨ (∃ e', e = .exception e') →
        result (repl evaluate rep (input :: inputs)) σ = (.error e, τ)) ∧
      (¬((∃ n, e = .status n) ∨ (∃ e', e = .exception e')) →
        result (repl evaluate rep (input :: inputs)) σ = result (do rep e; repl evaluate rep inputs) τ)) := by
  have key : ∀ (m : M D E P W Unit) (f : Thrown D E → M D E P W Unit) (r : Except (Thrown D E) Unit) (τ),
      result m σ = (r, τ) → result (tryCatch m f) σ = match r with
        | .ok () => (.ok (), τ)
        | .error e => result (f e) τ := by
    intro m f r τ h
    simp only [result, ExceptT.run_tryCatch, StateT.run_bind] at h ⊢
    rw [h]
    cases r <;> rfl
  have bind2 : ∀ {m m' : M D E P W Unit} {k : M D E P W Unit} {τ}, result m σ = result m' τ →
      result (do m; k) σ = result (do m'; k) τ := by
    intro m m' k τ h
    cases hr : result m' τ with
    | mk r υ =>
      cases r with
      | ok a => rw [result_bind_ok (h.trans hr), result_bind_ok hr]
      | error e => rw [result_bind_error (h.trans hr), result_bind_error hr]
  constructor
  · rintro x τ rfl hx
    rw [repl, result_bind_ok (a := ())]
    rw [key _ _ (.ok ()) τ]
    rw [result_bind_ok (m := ExceptT.mk (pure (Except.ok x))) (a := x) (τ := σ) rfl, hx]
  · intro e τ he
    have hm : result (do let x ← ExceptT.mk (pure input); evaluate x : M D E P W Unit) σ = (.error e, τ) := by
      rcases he with ⟨rfl, rfl⟩ | ⟨x, rfl, hx⟩
      · rfl
      · rw [result_bind_ok (m := ExceptT.mk (pure (Except.ok x))) (a := x) (τ := σ) rfl, hx]
    have hc := key _ (fun e => match e with
        | .status n => throw (.status n)
        | .exception e => throw (.exception e)
        | e => rep e) _ _ hm
    constructor
    · rintro (⟨n, rfl⟩ | ⟨e', rfl⟩)
      · exact result_bind_error hc
      · exact result_bind_error hc
    · intro hn
      rw [repl]
      apply bind2
      refine hc.trans ?_
      cases e with
      | status n => exact absurd (Or.inl ⟨n, rfl⟩) hn
      | exception e' => exact absurd (Or.inr ⟨e', rfl⟩) hn
      | _ => rfl

/-! ### What fails -/

theorem not_optionLike_of {a : Arg} (h : regexMatch a = none) : ¬OptionLike a := by
  intro ha
  cases ha with
  | long hn => rw [long_match hn] at h; simp at h
  | longEq hn ht => rw [longEq_match hn ht] at h; simp at h
  | short h0 hw => rw [short_match h0 hw] at h; simp at h

/-- **C80 fails for help and version**: the help text says that they exit, but the commands after them
are performed. -/
theorem C80_help_fails (H : Host D E P W) (program file : Arg) (h : ¬OptionLike file) :
    configure H [program, "--help".toList, file] = some (do H.help; H.loadFresh file) ∧
    configure H [program, "--version".toList, file] = some (do H.version; H.loadFresh file) := by
  have l1 : LongName "help".toList := ⟨'h', 'e', ['l', 'p'], rfl, by simp [Word], by simp [Word]⟩
  have l2 : LongName "version".toList := ⟨'v', 'e', ['r', 's', 'i', 'o', 'n'], rfl, by simp [Word], by simp [Word]⟩
  have e1 := C80_run H program (.plain l1 .help (.file h .nil))
  have e2 := C80_run H program (.plain l2 .version (.file h .nil))
  simp only [run, Cmd.perform, bind_pure_unit] at e1 e2
  exact ⟨e1, e2⟩

/-- **C80 fails for `=`**: when the text has more than one line, the whole argument is the name of a file;
when it is empty, the next argument is the operand, even if it is an option. -/
theorem C80_equals_fails (H : Host D E P W) (program : Arg) :
    configure H [program, "--evaluate=(begin\n 1)".toList] = some (H.loadFresh "--evaluate=(begin\n 1)".toList) ∧
    configure H [program, "--write=".toList, "--interactive".toList] =
      some (do H.write (← H.read "--interactive".toList)) := by
  have l1 : LongName "write".toList := ⟨'w', 'r', ['i', 't', 'e'], rfl, by simp [Word], by simp [Word]⟩
  have e1 := C80_run H program (.file (not_optionLike_of (a := "--evaluate=(begin\n 1)".toList) (by decide)) .nil)
  have e2 := C80_run H program (.operandEmpty (t := "--interactive".toList) l1 .write .nil)
  simp only [run, Cmd.perform, bind_pure_unit] at e1 e2
  exact ⟨e1, e2⟩

/-- **C80 fails for long names of one letter, and for `--`**: they are names of files. -/
theorem C80_names_fails (H : Host D E P W) (program : Arg) :
    configure H [program, "--x".toList] = some (H.loadFresh "--x".toList) ∧
    configure H [program, "--".toList] = some (H.loadFresh "--".toList) := by
  have e1 := C80_run H program (.file (not_optionLike_of (a := "--x".toList) (by decide)) .nil)
  have e2 := C80_run H program (.file (not_optionLike_of (a := "--".toList) (by decide)) .nil)
  simp only [run, Cmd.perform, bind_pure_unit] at e1 e2
  exact ⟨e1, e2⟩

/-- **C80 fails for the message about a missing operand**: it names the argument read last, which can be an
operand. -/
theorem C80_missing_fails (H : Host D E P W) (program : Arg) (t : Arg) :
    configure H [program, "-ee".toList, t] = some (do H.evaluate (← H.read t); throw (.missing t)) := by
  have := C80_stop (E := E) H program .nil (Wrong.short (cs := ['e', 'e']) (args := [t]) (by simp) (by simp [Word])
    (.operand (n := "e") rfl .e (.missing (n := "e") rfl .e)))
  simp only [List.nil_append, run, Cmd.perform, bind_assoc, pure_bind] at this
  simpa using this

/-- **C80 fails without a program name**: undefined behaviour. -/
theorem C80_empty_fails (H : Host D E P W) : configure H [] = none := rfl

/-! ### Examples -/

/-- `-iw 1 f.ss --load=g.ss`. -/
example : Parses ["-iw".toList, "1".toList, "f.ss".toList, "--load=g.ss".toList]
    [.interactive, .write "1".toList, .file "f.ss".toList, .load "g.ss".toList] :=
  .short (ks := [.interactive, .write "1".toList]) (by simp)
    (.plain (n := "i") rfl .i (.operand (n := "w") rfl .w .nil))
    (.file (not_optionLike_of (by decide))
      (.operandEq (n := "load") (t := ['g', '.', 's', 's']) ⟨'l', 'o', ['a', 'd'], rfl, by simp [Word], by simp [Word]⟩ .load (by simp)
        (by simp [OneLine]) .nil))

/-- `f.ss -x`. -/
example : ∃ p q ks ks', ∃ e : Thrown Unit Unit, ["f.ss".toList, "-x".toList] = p ++ q ∧ Parses p ks ∧ Wrong q ks' e :=
  ⟨["f.ss".toList], ["-x".toList], _, _, _, rfl, .file (not_optionLike_of (by decide)) .nil,
    .short (cs := ['x']) (by simp) (by simp [Word])
      (.unknown ⟨fun n k h => by cases h <;> simp, fun n k h => by cases h <;> simp⟩)⟩

/-- A host whose data and paths are texts; loading a file that does not exist (`?`) is an error, the
others count what they do. -/
def textHost : Host Arg Unit Arg Nat where
  read t := pure t
  path t := pure t
  boolean t := if t = "#t".toList then some true else none
  evaluate _ := modify fun σ => { σ with other := σ.other + 1 }
  load _ := modify fun σ => { σ with other := σ.other + 1 }
  loadFresh t := if t = "?".toList then throw (.error ()) else modify fun σ => { σ with other := σ.other + 1 }
  help := modify fun σ => { σ with other := σ.other + 1 }
  printDirectories _ := pure ()
  version := pure ()
  write _ := pure ()

example (σ : State Arg Arg Nat) : ∃ m, configure textHost ["meevax".toList, "-A".toList, "x".toList, "-I".toList, "y".toList] =
      some m ∧
    (ExceptT.run m).run σ = (.ok (), { σ with directories := ["y".toList] ++ σ.directories ++ ["x".toList] }) :=
  C80_directories textHost "meevax".toList id (fun _ => rfl) ["x".toList] ["y".toList] σ

/-- `f.ss ? g.ss` stops at the second file, with status one. -/
example : ∃ f, main textHost (pure ()) textHost.evaluate (fun _ σ => σ) []
      ["meevax".toList, "f.ss".toList, "?".toList, "g.ss".toList] = some f ∧
    f ⟨[], [], false, none, 0⟩ = (1, ⟨[], [], false, none, 1⟩) := by
  obtain ⟨f, h1, _, h2⟩ := C80_exit (H := textHost) (imports := pure ()) (evaluate := textHost.evaluate)
    (report := fun _ σ => σ) (inputs := []) (program := "meevax".toList)
    (.file (not_optionLike_of (a := "f.ss".toList) (by decide)) (.file (not_optionLike_of (a := "?".toList) (by decide))
      (.file (not_optionLike_of (a := "g.ss".toList) (by decide)) .nil))) ⟨[], [], false, none, 0⟩
  exact ⟨f, h1, (h2 (.error ()) ⟨[], [], false, none, 1⟩ rfl).2 (by simp)⟩

end Meevax.Cli
