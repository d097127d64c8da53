import Verif.Lemmas.System

/-
The interfaces of the standard libraries compared with each other and with the reports.
-/

namespace Meevax.System

/-- Does it agree with the first member of its name? -/
def agreeing (x : Exposed) (ys : List Exposed) : Bool :=
  match firstNamed x.name ys with
  | some y => x.cell.isSome && (sameVariable x.cell y.cell && sameVariable x.origin y.origin)
  | none => true

/-- No name occurs twice. -/
def distinct : List Exposed → Bool
  | [] => true
  | x :: xs => (xs.all fun y => !Nat.beq x.name y.name) && distinct xs

/-- The interface of the library agrees with those of the compatible libraries. -/
def compatibleWith (a : Name) : Bool :=
  match find a interfaces with
  | some xs =>
    distinct xs && compatible.all fun b =>
      (Nat.beq a b && among a once) ||
      (match find b interfaces with
        | some ys => xs.all fun x => agreeing x ys
        | none => false)
  | none => false

/-- The interfaces of compatible libraries agree. -/
def compatibility : Bool := compatible.all compatibleWith

/-! The check is made in parts, so that each of them takes little memory. -/

/-- A part of the check: `n` libraries, after `i` others. -/
def compatiblePart (i n : Nat) : Bool := ((compatible.drop i).take n).all compatibleWith

theorem compatible_part {i n : Nat} (j : Nat) (hj : i + n = j) (h : (compatible.take i).all compatibleWith = true)
    (hp : compatiblePart i n = true) : (compatible.take j).all compatibleWith = true := by
  rw [← hj, List.take_add, List.all_append, h]
  exact hp

theorem compatible_all {xs : List Name} {n : Nat} (h : xs.length = n)
    (hp : (xs.take n).all compatibleWith = true) : xs.all compatibleWith = true := by
  rwa [List.take_of_length_le (Nat.le_of_eq h)] at hp

set_option maxRecDepth 100000
set_option Elab.async false

theorem agree0 : compatiblePart 0 1 = true := by decide +kernel
theorem agree1 : compatiblePart 1 1 = true := by decide +kernel
theorem agree2 : compatiblePart 2 1 = true := by decide +kernel
theorem agree3 : compatiblePart 3 1 = true := by decide +kernel
theorem agree4 : compatiblePart 4 1 = true := by decide +kernel
theorem agree5 : compatiblePart 5 1 = true := by decide +kernel
theorem agree6 : compatiblePart 6 1 = true := by decide +kernel
theorem agree7 : compatiblePart 7 1 = true := by decide +kernel
theorem agree8 : compatiblePart 8 1 = true := by decide +kernel
theorem agree9 : compatiblePart 9 1 = true := by decide +kernel
theorem agree10 : compatiblePart 10 1 = true := by decide +kernel
theorem agree11 : compatiblePart 11 1 = true := by decide +kernel
theorem agree12 : compatiblePart 12 1 = true := by decide +kernel
theorem agree13 : compatiblePart 13 1 = true := by decide +kernel
theorem agree14 : compatiblePart 14 1 = true := by decide +kernel
theorem agree15 : compatiblePart 15 1 = true := by decide +kernel
theorem agree16 : compatiblePart 16 1 = true := by decide +kernel
theorem agree17 : compatiblePart 17 1 = true := by decide +kernel
theorem agree18 : compatiblePart 18 1 = true := by decide +kernel
theorem agree19 : compatiblePart 19 1 = true := by decide +kernel
theorem agree20 : compatiblePart 20 1 = true := by decide +kernel
theorem agree21 : compatiblePart 21 1 = true := by decide +kernel
theorem agree22 : compatiblePart 22 1 = true := by decide +kernel
theorem agree23 : compatiblePart 23 1 = true := by decide +kernel
theorem agree24 : compatiblePart 24 1 = true := by decide +kernel
theorem agree25 : compatiblePart 25 1 = true := by decide +kernel
theorem agree26 : compatiblePart 26 1 = true := by decide +kernel
theorem agree27 : compatiblePart 27 1 = true := by decide +kernel
theorem agree28 : compatiblePart 28 1 = true := by decide +kernel
theorem agree29 : compatiblePart 29 1 = true := by decide +kernel
theorem agree30 : compatiblePart 30 1 = true := by decide +kernel
theorem agree31 : compatiblePart 31 1 = true := by decide +kernel
theorem agree32 : compatiblePart 32 1 = true := by decide +kernel
theorem agree33 : compatiblePart 33 1 = true := by decide +kernel
theorem agree34 : compatiblePart 34 1 = true := by decide +kernel
theorem agree35 : compatiblePart 35 1 = true := by decide +kernel
theorem agree36 : compatiblePart 36 1 = true := by decide +kernel
theorem agree37 : compatiblePart 37 1 = true := by decide +kernel
theorem agree38 : compatiblePart 38 1 = true := by decide +kernel
theorem agree39 : compatiblePart 39 1 = true := by decide +kernel
theorem agree40 : compatiblePart 40 1 = true := by decide +kernel

theorem compatible_length : compatible.length = 41 := by decide +kernel

theorem compatibility_true : compatibility = true := by
  have h0 : (compatible.take 0).all compatibleWith = true := rfl
  have h1 := compatible_part 1 rfl h0 agree0
  have h2 := compatible_part 2 rfl h1 agree1
  have h3 := compatible_part 3 rfl h2 agree2
  have h4 := compatible_part 4 rfl h3 agree3
  have h5 := compatible_part 5 rfl h4 agree4
  have h6 := compatible_part 6 rfl h5 agree5
  have h7 := compatible_part 7 rfl h6 agree6
  have h8 := compatible_part 8 rfl h7 agree7
  have h9 := compatible_part 9 rfl h8 agree8
  have h10 := compatible_part 10 rfl h9 agree9
  have h11 := compatible_part 11 rfl h10 agree10
  have h12 := compatible_part 12 rfl h11 agree11
  have h13 := compatible_part 13 rfl h12 agree12
  have h14 := compatible_part 14 rfl h13 agree13
  have h15 := compatible_part 15 rfl h14 agree14
  have h16 := compatible_part 16 rfl h15 agree15
  have h17 := compatible_part 17 rfl h16 agree16
  have h18 := compatible_part 18 rfl h17 agree17
  have h19 := compatible_part 19 rfl h18 agree18
  have h20 := compatible_part 20 rfl h19 agree19
  have h21 := compatible_part 21 rfl h20 agree20
  have h22 := compatible_part 22 rfl h21 agree21
  have h23 := compatible_part 23 rfl h22 agree22
  have h24 := compatible_part 24 rfl h23 agree23
  have h25 := compatible_part 25 rfl h24 agree24
  have h26 := compatible_part 26 rfl h25 agree25
  have h27 := compatible_part 27 rfl h26 agree26
  have h28 := compatible_part 28 rfl h27 agree27
  have h29 := compatible_part 29 rfl h28 agree28
  have h30 := compatible_part 30 rfl h29 agree29
  have h31 := compatible_part 31 rfl h30 agree30
  have h32 := compatible_part 32 rfl h31 agree31
  have h33 := compatible_part 33 rfl h32 agree32
  have h34 := compatible_part 34 rfl h33 agree33
  have h35 := compatible_part 35 rfl h34 agree34
  have h36 := compatible_part 36 rfl h35 agree35
  have h37 := compatible_part 37 rfl h36 agree36
  have h38 := compatible_part 38 rfl h37 agree37
  have h39 := compatible_part 39 rfl h38 agree38
  have h40 := compatible_part 40 rfl h39 agree39
  have h41 := compatible_part 41 rfl h40 agree40
  exact compatible_all compatible_length h41

theorem distinct_first {ys : List Exposed} (h : distinct ys = true) {y : Exposed} (hy : y ∈ ys) :
    firstNamed y.name ys = some y := by
  induction ys with
  | nil => cases hy
  | cons z zs ih =>
    simp only [distinct, Bool.and_eq_true, List.all_eq_true] at h
    simp only [firstNamed]
    rcases List.mem_cons.1 hy with rfl | hm
    · rw [Nat.beq_refl]; rfl
    · have := h.1 y hm
      cases hb : Nat.beq z.name y.name with
      | true => rw [hb] at this; cases this
      | false => exact ih h.2 hm

theorem agreeing_agree {x y : Exposed} {ys : List Exposed} (hd : distinct ys = true)
    (h : agreeing x ys = true) (hy : y ∈ ys) : Agree x y := by
  intro hn
  simp only [agreeing, hn, distinct_first hd hy, Bool.and_eq_true, sameVariable_iff] at h
  exact h

theorem distinct_pairwise {xs : List Exposed} (h : distinct xs = true) : xs.Pairwise Agree := by
  induction xs with
  | nil => exact .nil
  | cons x xs ih =>
    simp only [distinct, Bool.and_eq_true, List.all_eq_true] at h
    refine .cons ?_ (ih h.2)
    intro y hy hn
    have := h.1 y hy
    rw [hn, Nat.beq_refl] at this
    cases this

theorem compatible_interface {a : Name} (ha : a ∈ compatible) :
    ∃ xs, find a interfaces = some xs ∧ distinct xs = true ∧ ∀ b ∈ compatible, (a = b → a ∉ once) →
      ∃ ys, find b interfaces = some ys ∧ ∀ x ∈ xs, agreeing x ys = true := by
  have h := List.all_eq_true.1 compatibility_true a ha
  unfold compatibleWith at h
  cases hx : find a interfaces with
  | none => rw [hx] at h; cases h
  | some xs =>
    simp only [hx, Bool.and_eq_true, List.all_eq_true, Bool.or_eq_true] at h
    refine ⟨xs, rfl, h.1, ?_⟩
    intro b hb ho
    rcases h.2 b hb with h1 | h1
    · exact absurd (among_iff.1 h1.2) (ho (Nat.eq_of_beq_eq_true h1.1))
    · cases hy : find b interfaces with
      | none => rw [hy] at h1; cases h1
      | some ys =>
        rw [hy] at h1
        exact ⟨ys, rfl, List.all_eq_true.1 h1⟩

theorem compatible_agree {a b : Name} (ha : a ∈ compatible) (hb : b ∈ compatible)
    (h : a = b → a ∉ once) {xs ys : List Exposed} (hx : find a interfaces = some xs)
    (hy : find b interfaces = some ys) {x y : Exposed} (hxm : x ∈ xs) (hym : y ∈ ys) : Agree x y := by
  obtain ⟨xs', h1, _, h2⟩ := compatible_interface ha
  obtain ⟨ys', h3, h4⟩ := h2 b hb h
  obtain ⟨ys'', h5, h6, _⟩ := compatible_interface hb
  rw [hx] at h1; cases h1
  rw [hy] at h3; cases h3
  rw [hy] at h5; cases h5
  exact agreeing_agree h6 (h4 x hxm) hym

end Meevax.System
