import Verif.Spec.BytePort
import Verif.Props.Sequence

/-
C52: bytevector ports. C63: binary file ports.
-/

namespace Meevax.Byte
open Meevax.Number Meevax.Seq

/-! ### C52 -/

/-- C52: no call loses, duplicates or reorders a byte: the bytes taken, followed by those left, are the
contents. -/
theorem C52_no_loss (ops : List Op) (bs : List Nat) :
    (run ops (openInput bs)).1.length = ops.length ∧
    (List.zipWith taken ops (run ops (openInput bs)).1).flatten ++ (run ops (openInput bs)).2 = bs := by
  unfold openInput
  induction ops generalizing bs with
  | nil => simp [run]
  | cons op ops ih =>
    have hstep : taken op (step op bs).1 ++ (step op bs).2 = bs := by
      cases op with
      | readU8 => cases bs <;> simp [step, get, taken]
      | peekU8 => cases bs <;> simp [step, peek, taken]
      | readBytes k =>
        simp only [step, getBytes]
        split <;> simp [taken]
      | ready => simp [step, getReady, taken]
    have := ih (step op bs).2
    refine ⟨by simpa [run] using this.1, ?_⟩
    simp only [run, List.zipWith_cons_cons, List.flatten_cons, List.append_assoc]
    rw [this.2, hstep]

/-- A call with at least as many bytes left as it asks for, and not `u8-ready?` at the end. -/
def Enough (bs : List Nat) : Op → Prop
  | .readBytes k => k ≤ bs.length
  | .ready => bs ≠ []
  | _ => True

/-- C52 (in part): every such call does what R7RS says. -/
theorem C52_read_partial (op : Op) (bs : List Nat) (h : Enough bs op) :
    Reads bs op (step op bs).1 (step op bs).2 := by
  cases op with
  | readU8 =>
    cases bs with
    | nil => exact .readU8End
    | cons b bs => exact .readU8 b bs
  | peekU8 =>
    cases bs with
    | nil => exact .peekU8End
    | cons b bs => exact .peekU8 b bs
  | readBytes k =>
    have hk : k ≤ bs.length := h
    simp only [step, getBytes]
    rw [if_neg (by omega)]
    have := Reads.readBytes k (bs.take k) (bs.drop k) (by simp [hk])
    rwa [List.take_append_drop] at this
  | ready =>
    have : bs.isEmpty = false := by cases bs <;> first | rfl | exact absurd rfl h
    simp only [step, getReady, this]
    exact .ready bs

/-- C52 (in part): reading a port byte by byte gives the bytes and then eof objects. -/
theorem C52_bytes (bs : List Nat) (n : Nat) :
    run (List.replicate (bs.length + n) .readU8) (openInput bs) =
      (bs.map (fun b : Nat => Result.integer b) ++ List.replicate n .eof, []) := by
  unfold openInput
  induction bs with
  | nil =>
    induction n with
    | zero => rfl
    | succ n ih =>
      simp only [List.length_nil, Nat.zero_add] at ih ⊢
      simp only [List.replicate_succ, run, step, get, ih, List.map_nil, List.nil_append]
  | cons b bs ih =>
    have e : (b :: bs).length + n = (bs.length + n) + 1 := by simp; omega
    rw [e, List.replicate_succ]
    simp only [run, step, get, ih, List.map_cons, List.cons_append]

/-- C52: `peek-u8` takes nothing, and gives what the next `read-u8` gives. -/
theorem C52_peek (bs : List Nat) :
    (step .peekU8 bs).2 = bs ∧ (step .peekU8 bs).1 = (step .readU8 bs).1 := by
  cases bs <;> exact ⟨rfl, rfl⟩

theorem u8Cast_byte {b : Nat} {x : Num} (h : IsByte b x) : u8Cast x = .value b := by
  obtain ⟨hb, rfl | rfl⟩ := h
  · simp only [u8Cast]
    congr 1; omega
  · simp only [u8Cast]
    congr 1; omega

/-- C52: an output port gives the bytes written to it, in order; and keeps giving them. -/
theorem C52_write {ps : List Put} {bss : List (List Nat)} (h : List.Forall₂ Writes ps bss) :
    ∃ port, putAll openOutput ps = .value port ∧ getOutput port = bss.flatten := by
  suffices H : ∀ before, putAll before ps = .value (before ++ bss.flatten) from ⟨_, H openOutput, rfl⟩
  induction h with
  | nil => intro before; simp [putAll]
  | @cons p bs ps bss h _ ih =>
    intro before
    have : put before p = .value (before ++ bs) := by
      cases h with
      | u8 h => simp [put, u8Cast_byte h]
      | bytes bs => simp [put]
    simp [putAll, this, ih]

/-- C52: a later write does not change what has been written. -/
theorem C52_write_append (before after : List Put) {v w : List Nat} (h : putAll openOutput before = .value v)
    (h' : putAll v after = .value w) : putAll openOutput (before ++ after) = .value w ∧ getOutput v <+: getOutput w := by
  constructor
  · suffices H : ∀ u, putAll u before = .value v → putAll u (before ++ after) = .value w from H _ h
    clear h
    induction before with
    | nil => intro u hu; simp [putAll] at hu; subst hu; simpa using h'
    | cons p ps ih =>
      intro u hu
      simp only [putAll, List.cons_append] at hu ⊢
      cases hp : put u p with
      | value z => rw [hp] at hu; simp at hu ⊢; exact ih z hu
      | raised => rw [hp] at hu; cases hu
      | undefined => rw [hp] at hu; cases hu
  · clear h
    unfold getOutput
    induction after generalizing v with
    | nil => simp [putAll] at h'; subst h'; exact List.prefix_refl _
    | cons p ps ih =>
      simp only [putAll] at h'
      cases hp : put v p with
      | value z =>
        rw [hp] at h'; simp at h'
        refine List.IsPrefix.trans ?_ (ih h')
        cases p with
        | u8 x =>
          simp only [put] at hp
          cases hx : u8Cast x with
          | value b => rw [hx] at hp; simp at hp; subst hp; exact List.prefix_append _ _
          | raised => rw [hx] at hp; cases hp
          | undefined => rw [hx] at hp; cases hp
        | bytes bs => simp [put] at hp; subst hp; exact List.prefix_append _ _
      | raised => rw [hp] at h'; cases h'
      | undefined => rw [hp] at h'; cases h'

/-- C52: bytes written to an output port come back from an input port on its contents. -/
theorem C52_round_trip {ps : List Put} {bss : List (List Nat)} (h : List.Forall₂ Writes ps bss) :
    ∃ port, putAll openOutput ps = .value port ∧
      run (List.replicate (bss.flatten.length + 1) .readU8) (openInput (getOutput port)) =
        (bss.flatten.map (fun b : Nat => Result.integer b) ++ [.eof], []) := by
  obtain ⟨port, h1, h2⟩ := C52_write h
  refine ⟨port, h1, ?_⟩
  rw [h2]
  exact C52_bytes bss.flatten 1

/-- C52 (in part): `read-bytevector!` stores the bytes in the designated places if there are enough of
them. -/
theorem C52_read_into_partial {σ : Store Nat} {a : Nat} {xs : List Nat} (ha : σ[a]? = some xs) {i j : Nat}
    (hij : i ≤ j) (hj : j ≤ xs.length) (hl : xs.length < 2 ^ 64) {bs : List Nat} (hb : j - i ≤ bs.length) :
    ∃ r τ ys, readInto σ a i j bs = .value (r, τ, bs.drop (j - i)) ∧ τ[a]? = some ys ∧
      (∀ b : Nat, b ≠ a → b < σ.length → τ[b]? = σ[b]?) ∧ Replaced xs i (bs.take (j - i)) ys := by
  have hlt : a < σ.length := (List.getElem?_eq_some_iff.1 ha).1
  have hlen : (bs.take (j - i)).length = j - i := by rw [List.length_take]; omega
  have h1 : (σ ++ [bs.take (j - i)])[σ.length]? = some (bs.take (j - i)) := by simp
  have h2 : (σ ++ [bs.take (j - i)])[a]? = some xs := by rw [List.getElem?_append_left hlt, ha]
  obtain ⟨τ, new, zs, _, g1, g2, g3, g4, g5⟩ := C50_copy_into_partial h1 h2 (range := []) .all
    (k := i) (n := .large i) ⟨by omega, .inr rfl⟩ (by rw [hlen]; omega) (by omega)
  have hnew : new = bs.take (j - i) := by
    have := g4.eq (le_refl _)
    rw [this]; simp
  subst hnew
  refine ⟨.unspecified, τ, zs, ?_, g3, ?_, g5⟩
  · simp only [readInto, getBytes]
    rw [if_neg (by omega)]
    simp only [allocate, g1, bind_value]
  · intro b hne hlt'
    rw [g2.2 b hne, List.getElem?_append_left hlt']

/-- The hypotheses are met. -/
example : run [.peekU8, .readU8, .readBytes 2, .ready, .readU8, .readU8] (openInput [1, 2, 3, 4]) =
    ([.integer 1, .integer 1, .bytes [2, 3], .boolean true, .integer 4, .eof], []) := rfl

example : List.Forall₂ Writes [.u8 (.small 7), .bytes [1, 2], .u8 (.large 255)] [[7], [1, 2], [255]] :=
  .cons (.u8 ⟨by omega, .inl rfl⟩) (.cons (.bytes _) (.cons (.u8 ⟨by omega, .inr rfl⟩) .nil))

/-- C52 fails: `read-bytevector` gives an eof object when fewer bytes are left than asked for, which R7RS
does not allow. -/
theorem C52_short_fails {bs : List Nat} {k : Nat} (h : bs.length < k) :
    step (.readBytes k) bs = (.eof, bs) ∧ (bs ≠ [] → ¬ ∃ rest, Reads bs (.readBytes k) .eof rest) := by
  constructor
  · simp [step, getBytes, h]
  · rintro hne ⟨rest, hr⟩
    cases hr
    exact hne rfl

/-- C52 fails: `u8-ready?` at the end is false. -/
theorem C52_ready_fails : step .ready [] = (.boolean false, []) := rfl

/-- C52 fails: `read-bytevector!` never gives the number of bytes; and if there are fewer bytes than places,
none is stored. -/
theorem C52_read_into_fails (σ : Store Nat) (a i j : Nat) (bs : List Nat) :
    (∀ r τ rest, readInto σ a i j bs = .value (r, τ, rest) → r = .eof ∨ r = .unspecified) ∧
    (bs.length < j - i → readInto σ a i j bs = .value (.eof, σ, bs)) := by
  constructor
  · intro r _ _ _
    cases r
    · exact Or.inl rfl
    · exact Or.inr rfl
  · intro h; simp [readInto, getBytes, h]

/-- C52 fails: `write-u8` takes numbers modulo 256. -/
theorem C52_byte_fails : putAll openOutput [.u8 (.small 256), .u8 (.small (-1))] = .value [0, 255] := rfl

/-! ### C63 -/

/-- C63: no call on a binary input file port loses, duplicates or reorders a byte. -/
theorem C63_no_loss (ops : List Op) (bs : List Nat) :
    (InFile.run ops (openFile bs)).1.length = ops.length ∧
    (List.zipWith taken ops (InFile.run ops (openFile bs)).1).flatten ++ (InFile.run ops (openFile bs)).2.rest = bs := by
  suffices H : ∀ f : InFile, (InFile.run ops f).1.length = ops.length ∧
      (List.zipWith taken ops (InFile.run ops f).1).flatten ++ (InFile.run ops f).2.rest = f.rest from H _
  induction ops with
  | nil => intro f; simp [InFile.run]
  | cons op ops ih =>
    intro f
    have hstep : taken op (f.step op).1 ++ (f.step op).2.rest = f.rest := by
      obtain ⟨rest, e, fl⟩ := f
      cases op with
      | readU8 =>
        cases e <;> cases fl <;> cases rest <;> simp [InFile.step, InFile.get, InFile.read, taken]
      | peekU8 =>
        cases e <;> cases fl <;> cases rest <;> simp [InFile.step, InFile.peek, InFile.peekByte, InFile.ready, taken]
      | readBytes k =>
        simp only [InFile.step, InFile.getBytes, InFile.read]
        split
        · simp [taken]
        · split <;> simp [taken]
      | ready => simp [InFile.step, taken]
    have := ih (f.step op).2
    refine ⟨by simpa [InFile.run] using this.1, ?_⟩
    simp only [InFile.run, List.zipWith_cons_cons, List.flatten_cons, List.append_assoc]
    rw [this.2, hstep]

theorem read_open (bs : List Nat) (k : Nat) : (openFile bs).read k =
    if bs.length < k then (bs, { rest := [], eof := true, fail := true }) else (bs.take k, openFile (bs.drop k)) :=
  rfl

/-- A call with at least as many bytes left as it asks for; or one that R7RS lets read fewer. -/
def FileEnough (bs : List Nat) : Op → Prop
  | .readBytes k => k = 0 ∨ bs ≠ []
  | .peekU8 => bs ≠ []
  | _ => True

/-- C63 (in part): on a port that has not met the end, every such call does what R7RS says; short reads
too. -/
theorem C63_read_partial (op : Op) (bs : List Nat) (h : FileEnough bs op) :
    Reads bs op ((openFile bs).step op).1 ((openFile bs).step op).2.rest := by
  cases op with
  | readU8 =>
    cases bs with
    | nil => exact .readU8End
    | cons b bs => exact .readU8 b bs
  | peekU8 =>
    cases bs with
    | nil => exact absurd rfl h
    | cons b bs => exact .peekU8 b bs
  | readBytes k =>
    simp only [InFile.step, InFile.getBytes, read_open]
    by_cases hk : bs.length < k
    · rw [if_pos hk]
      rcases h with rfl | h
      · omega
      · exact .readBytesShort k bs h hk
    · rw [if_neg hk]
      have := Reads.readBytes k (bs.take k) (bs.drop k) (by simp; omega)
      rwa [List.take_append_drop] at this
  | ready => exact .ready bs

/-- C63: while bytes are left and no more are asked for than are left, the port stays as newly opened on
them, so that the previous theorem goes on to apply. -/
theorem C63_open (op : Op) (bs : List Nat) (h : Enough bs op) (hb : bs ≠ []) :
    ((openFile bs).step op).2 = openFile ((openFile bs).step op).2.rest := by
  cases bs with
  | nil => exact absurd rfl hb
  | cons b bs =>
    cases op with
    | readU8 => rfl
    | peekU8 => rfl
    | readBytes k =>
      have hk : k ≤ (b :: bs).length := h
      simp only [InFile.step, InFile.getBytes, read_open]
      rw [if_neg (by omega)]
      rfl
    | ready => rfl

/-- C63 (in part): reading a file byte by byte gives the bytes and then eof objects. -/
theorem C63_bytes (bs : List Nat) (n : Nat) :
    (InFile.run (List.replicate (bs.length + n) .readU8) (openFile bs)).1 =
      bs.map (fun b : Nat => Result.integer b) ++ List.replicate n .eof := by
  unfold openFile
  induction bs with
  | nil =>
    suffices H : ∀ e fl, (InFile.run (List.replicate n .readU8) ⟨[], e, fl⟩).1 = List.replicate n .eof by
      simpa using H false false
    induction n with
    | zero => intro e fl; rfl
    | succ n ih =>
      intro e fl
      rw [List.replicate_succ, List.replicate_succ]
      cases e <;> cases fl <;> simp [InFile.run, InFile.step, InFile.get, InFile.read, ih]
  | cons b bs ih =>
    have e : (b :: bs).length + n = (bs.length + n) + 1 := by simp; omega
    rw [e, List.replicate_succ]
    have : ({ rest := b :: bs } : InFile).step .readU8 = (.integer b, { rest := bs }) := rfl
    simp only [InFile.run, this, ih, List.map_cons, List.cons_append]

theorem writeLoop_eq (file bs : List Nat) : writeLoop file bs = file ++ bs := by
  induction bs generalizing file with
  | nil => simp [writeLoop]
  | cons b bs ih => simp [writeLoop, ih]

/-- C63: a file contains the bytes written to it, in order, and nothing of what it contained before. -/
theorem C63_write (old : List Nat) {ps : List Put} {bss : List (List Nat)} (h : List.Forall₂ Writes ps bss) :
    filePutAll (openOutputFile old) ps = .value bss.flatten := by
  suffices H : ∀ before, filePutAll before ps = .value (before ++ bss.flatten) from H []
  induction h with
  | nil => intro before; simp [filePutAll]
  | @cons p bs ps bss h _ ih =>
    intro before
    have : filePut before p = .value (before ++ bs) := by
      cases h with
      | u8 h => simp [filePut, u8Cast_byte h]
      | bytes bs => simp [filePut, writeLoop_eq]
    simp [filePutAll, this, ih]

/-- C63: bytes written to a file come back from an input port on it. -/
theorem C63_round_trip (old : List Nat) {ps : List Put} {bss : List (List Nat)} (h : List.Forall₂ Writes ps bss) :
    ∃ file, filePutAll (openOutputFile old) ps = .value file ∧
      (InFile.run (List.replicate (bss.flatten.length + 1) .readU8) (openFile file)).1 =
        bss.flatten.map (fun b : Nat => Result.integer b) ++ [.eof] :=
  ⟨_, C63_write old h, C63_bytes bss.flatten 1⟩

/-- The hypotheses are met. -/
example : InFile.run [.peekU8, .readU8, .readBytes 2, .ready, .readBytes 5] (openFile [1, 2, 3, 4]) =
    ([.integer 1, .integer 1, .bytes [2, 3], .boolean true, .bytes [4]], ⟨[], true, true⟩) := rfl

/-- C63 fails: `peek-u8` at the end of a file gives -1. -/
theorem C63_peek_fails : ((openFile []).step .peekU8).1 = .integer (-1) ∧
    ¬ ∃ rest, Reads [] .peekU8 (.integer (-1)) rest := by
  refine ⟨rfl, ?_⟩
  rintro ⟨_, h⟩
  generalize hx : ([] : List Nat) = xs at h
  cases h

theorem reads_end {xs rest : List Nat} {op : Op} {r : Result} (h : Reads xs op r rest) :
    xs = [] → ∀ k, op = .readBytes k → r = .bytes [] → k = 0 := by
  cases h with
  | readBytes k got rest hl =>
    rintro - _ ⟨⟩ ⟨⟩
    simpa using hl.symm
  | readBytesShort k got hne hl =>
    intro h; exact absurd h hne
  | _ => rintro - _ ⟨⟩ ⟨⟩

/-- C63 fails: `read-bytevector` at the end of a file gives an empty bytevector, whatever is asked for. -/
theorem C63_end_fails (f : InFile) (k : Nat) (h : f.rest = []) :
    (f.step (.readBytes k)).1 = .bytes [] ∧ (0 < k → ¬ ∃ rest, Reads [] (.readBytes k) (.bytes []) rest) := by
  constructor
  · simp only [InFile.step, InFile.getBytes, InFile.read, h]
    split
    · rfl
    · split
      · rfl
      · simp
  · rintro hk ⟨rest, hr⟩
    have := reads_end hr rfl k rfl rfl
    omega

/-- C63 fails: `u8-ready?` is false once the end has been met. -/
theorem C63_ready_fails : (InFile.run [.readU8, .ready] (openFile [])).1 = [.eof, .boolean false] := rfl

end Meevax.Byte
