import Verif.Lemmas.EqualForest
import Mathlib.Logic.Relation
import Mathlib.Data.Finset.Card
import Mathlib.Data.Finset.Prod
import Mathlib.Data.Finset.Range

/-! `eqv?` and `equal?` decide their specifications. -/

namespace Meevax.Equal

variable {numEq : Val → Val → Bool} {h : Heap}

theorem leafEq_ref {a b : Nat} : LeafEq numEq h (.ref a) (.ref b) ↔
    a = b ∨ (∃ n, h a = .integer n ∧ h b = .integer n) ∨ (∃ s, h a = .string s ∧ h b = .string s) ∨
    (∃ s, h a = .bytes s ∧ h b = .bytes s) ∨ (∃ n d, h a = .ratio n d ∧ h b = .ratio n d) ∨
    (∃ r i r' i', h a = .complex r i ∧ h b = .complex r' i' ∧ numEq r r' = true ∧
      numEq i i' = true) ∨
    (∃ k c d, h a = .structural k c d ∧ h b = .structural k c d) := by
  constructor
  · intro l
    cases l with
    | same => exact Or.inl rfl
    | integer p q =>
      cases p with
      | big e => cases q with
        | big e' => exact Or.inr (Or.inl ⟨_, e, e'⟩)
    | string e e' => exact Or.inr (Or.inr (Or.inl ⟨_, e, e'⟩))
    | bytes e e' => exact Or.inr (Or.inr (Or.inr (Or.inl ⟨_, e, e'⟩)))
    | ratio e e' => exact Or.inr (Or.inr (Or.inr (Or.inr (Or.inl ⟨_, _, e, e'⟩))))
    | complex e e' n n' =>
      exact Or.inr (Or.inr (Or.inr (Or.inr (Or.inr (Or.inl ⟨_, _, _, _, e, e', n, n'⟩)))))
    | structural e e' =>
      exact Or.inr (Or.inr (Or.inr (Or.inr (Or.inr (Or.inr ⟨_, _, _, e, e'⟩)))))
  · rintro (rfl | ⟨n, e, e'⟩ | ⟨s, e, e'⟩ | ⟨s, e, e'⟩ | ⟨n, d, e, e'⟩ | ⟨r, i, r', i', e, e', n, n'⟩ |
      ⟨k, c, d, e, e'⟩)
    · exact .same _
    · exact .integer (.big e) (.big e')
    · exact .string e e'
    · exact .bytes e e'
    · exact .ratio e e'
    · exact .complex e e' n n'
    · exact .structural e e'

/-- Leaf equality touches pairs and vectors only by identity. -/
theorem LeafEq.compound {x : Val} {b : Nat} (l : LeafEq numEq h x (.ref b))
    (hb : (∃ c d, h b = .pair c d) ∨ (∃ xs, h b = .vector xs)) : x = .ref b := by
  cases l with
  | same => rfl
  | integer p q => cases q with
    | big e => rcases hb with ⟨c, d, e'⟩ | ⟨xs, e'⟩ <;> rw [e] at e' <;> cases e'
  | string e e2 => rcases hb with ⟨c, d, e'⟩ | ⟨xs, e'⟩ <;> rw [e2] at e' <;> cases e'
  | bytes e e2 => rcases hb with ⟨c, d, e'⟩ | ⟨xs, e'⟩ <;> rw [e2] at e' <;> cases e'
  | ratio e e2 => rcases hb with ⟨c, d, e'⟩ | ⟨xs, e'⟩ <;> rw [e2] at e' <;> cases e'
  | complex e e2 => rcases hb with ⟨c, d, e'⟩ | ⟨xs, e'⟩ <;> rw [e2] at e' <;> cases e'
  | structural e e2 => rcases hb with ⟨c, d, e'⟩ | ⟨xs, e'⟩ <;> rw [e2] at e' <;> cases e'

theorem Denotes.det {x : Val} {m n : Int} (p : Denotes h x m) (q : Denotes h x n) : m = n := by
  cases p with
  | fix => cases q; rfl
  | big e => cases q with
    | big e' => rw [e] at e'; cases e'; rfl

/-- `number::equals` behaves as an equivalence on the parts of complex numbers. -/
def NumEquiv (numEq : Val → Val → Bool) : Prop := Equivalence fun x y => numEq x y = true

theorem LeafEq.symm (ne : NumEquiv numEq) {x y : Val} (l : LeafEq numEq h x y) :
    LeafEq numEq h y x := by
  cases l with
  | same => exact .same _
  | integer p q => exact .integer q p
  | string e e' => exact .string e' e
  | bytes e e' => exact .bytes e' e
  | ratio e e' => exact .ratio e' e
  | complex e e' n n' => exact .complex e' e (ne.symm n) (ne.symm n')
  | structural e e' => exact .structural e' e

theorem LeafEq.trans (ne : NumEquiv numEq) {x y z : Val} (l : LeafEq numEq h x y)
    (l' : LeafEq numEq h y z) : LeafEq numEq h x z := by
  cases l' with
  | same => exact l
  | @integer _ _ n p q =>
    cases l with
    | same => exact .integer p q
    | integer p' q' => rw [q'.det p] at p'; exact .integer p' q
    | string e e' => cases p with | big e2 => rw [e'] at e2; cases e2
    | bytes e e' => cases p with | big e2 => rw [e'] at e2; cases e2
    | ratio e e' => cases p with | big e2 => rw [e'] at e2; cases e2
    | complex e e' => cases p with | big e2 => rw [e'] at e2; cases e2
    | structural e e' => cases p with | big e2 => rw [e'] at e2; cases e2
  | string e1 e2 =>
    cases l with
    | same => exact .string e1 e2
    | integer _ q' => cases q' with | big e => rw [e1] at e; cases e
    | string e e' => rw [e1] at e'; cases e'; exact .string e e2
    | bytes e e' => rw [e1] at e'; cases e'
    | ratio e e' => rw [e1] at e'; cases e'
    | complex e e' => rw [e1] at e'; cases e'
    | structural e e' => rw [e1] at e'; cases e'
  | bytes e1 e2 =>
    cases l with
    | same => exact .bytes e1 e2
    | integer _ q' => cases q' with | big e => rw [e1] at e; cases e
    | bytes e e' => rw [e1] at e'; cases e'; exact .bytes e e2
    | string e e' => rw [e1] at e'; cases e'
    | ratio e e' => rw [e1] at e'; cases e'
    | complex e e' => rw [e1] at e'; cases e'
    | structural e e' => rw [e1] at e'; cases e'
  | ratio e1 e2 =>
    cases l with
    | same => exact .ratio e1 e2
    | integer _ q' => cases q' with | big e => rw [e1] at e; cases e
    | ratio e e' => rw [e1] at e'; cases e'; exact .ratio e e2
    | string e e' => rw [e1] at e'; cases e'
    | bytes e e' => rw [e1] at e'; cases e'
    | complex e e' => rw [e1] at e'; cases e'
    | structural e e' => rw [e1] at e'; cases e'
  | complex e1 e2 n1 n2 =>
    cases l with
    | same => exact .complex e1 e2 n1 n2
    | integer _ q' => cases q' with | big e => rw [e1] at e; cases e
    | complex e e' n n' =>
      rw [e1] at e'; cases e'; exact .complex e e2 (ne.trans n n1) (ne.trans n' n2)
    | string e e' => rw [e1] at e'; cases e'
    | bytes e e' => rw [e1] at e'; cases e'
    | ratio e e' => rw [e1] at e'; cases e'
    | structural e e' => rw [e1] at e'; cases e'
  | structural e1 e2 =>
    cases l with
    | same => exact .structural e1 e2
    | integer _ q' => cases q' with | big e => rw [e1] at e; cases e
    | structural e e' => rw [e1] at e'; cases e'; exact .structural e e2
    | string e e' => rw [e1] at e'; cases e'
    | bytes e e' => rw [e1] at e'; cases e'
    | ratio e e' => rw [e1] at e'; cases e'
    | complex e e' => rw [e1] at e'; cases e'

theorem LeafEq.select {x y : Val} (l : LeafEq numEq h x y) (ne : x ≠ y) (s : Selector) :
    select h s x = none ∧ select h s y = none := by
  have aux : ∀ {v : Val} {n : Int}, Denotes h v n → Equal.select h s v = none := by
    intro v n d
    cases d with
    | fix => rfl
    | big e => simp only [Equal.select, e]
  cases l with
  | same => exact (ne rfl).elim
  | integer p q => exact ⟨aux p, aux q⟩
  | string e e' => simp only [Equal.select, e, e', and_self]
  | bytes e e' => simp only [Equal.select, e, e', and_self]
  | ratio e e' => simp only [Equal.select, e, e', and_self]
  | complex e e' => simp only [Equal.select, e, e', and_self]
  | structural e e' => simp only [Equal.select, e, e', and_self]

/-! ### Indistinguishability as a greatest bisimulation -/

theorem Indistinguishable.refl (x : Val) : Indistinguishable numEq h x x := by
  intro path
  cases e : follow h path x with
  | none => exact Or.inr ⟨rfl, rfl⟩
  | some u => exact Or.inl ⟨u, u, rfl, rfl, Or.inl (.same u)⟩

/-- One unfolding. -/
def Unfolds (numEq : Val → Val → Bool) (h : Heap) (R : Val → Val → Prop) (x y : Val) : Prop :=
  LeafEq numEq h x y ∨
  (∃ a b c d c' d', x = .ref a ∧ y = .ref b ∧ h a = .pair c d ∧ h b = .pair c' d' ∧ R c c' ∧
    R d d') ∨
  (∃ a b xs ys, x = .ref a ∧ y = .ref b ∧ h a = .vector xs ∧ h b = .vector ys ∧
    List.Forall₂ R xs ys)

theorem Indistinguishable.of_bisimulation {R : Val → Val → Prop}
    (bis : ∀ x y, R x y → Unfolds numEq h R x y) {x y : Val} (r : R x y) :
    Indistinguishable numEq h x y := by
  intro path
  induction path generalizing x y with
  | nil =>
    refine Or.inl ⟨x, y, rfl, rfl, ?_⟩
    rcases bis x y r with l | ⟨a, b, c, d, c', d', rfl, rfl, ha, hb, -, -⟩ |
      ⟨a, b, xs, ys, rfl, rfl, ha, hb, f⟩
    · exact Or.inl l
    · exact Or.inr (Or.inl ⟨a, b, c, d, c', d', rfl, rfl, ha, hb⟩)
    · exact Or.inr (Or.inr ⟨a, b, xs, ys, rfl, rfl, ha, hb, f.length_eq⟩)
  | cons s path ih =>
    rcases bis x y r with l | ⟨a, b, c, d, c', d', rfl, rfl, ha, hb, rc, rd⟩ |
      ⟨a, b, xs, ys, rfl, rfl, ha, hb, f⟩
    · by_cases e : x = y
      · subst e; exact Indistinguishable.refl x (s :: path)
      · obtain ⟨e1, e2⟩ := l.select e s
        exact Or.inr ⟨by simp [follow, e1], by simp [follow, e2]⟩
    · cases s with
      | car => simpa [follow, select, ha, hb] using ih rc
      | cdr => simpa [follow, select, ha, hb] using ih rd
      | index => exact Or.inr ⟨by simp [follow, select, ha], by simp [follow, select, hb]⟩
    · cases s with
      | car => exact Or.inr ⟨by simp [follow, select, ha], by simp [follow, select, hb]⟩
      | cdr => exact Or.inr ⟨by simp [follow, select, ha], by simp [follow, select, hb]⟩
      | index i =>
        by_cases hi : i < xs.length
        · have hi' : i < ys.length := f.length_eq ▸ hi
          have := ih (f.get hi hi')
          simpa [follow, select, ha, hb, hi, hi'] using this
        · have hi' : ¬ i < ys.length := f.length_eq ▸ hi
          have n1 : xs[i]? = none := by simpa using hi
          have n2 : ys[i]? = none := by simpa using hi'
          exact Or.inr ⟨by simp [follow, select, ha, n1], by simp [follow, select, hb, n2]⟩

theorem Indistinguishable.unfolds {x y : Val} (i : Indistinguishable numEq h x y) :
    Unfolds numEq h (Indistinguishable numEq h) x y := by
  rcases i [] with ⟨u, v, e1, e2, hd⟩ | ⟨e, -⟩
  · simp only [follow, Option.some.injEq] at e1 e2
    subst e1; subst e2
    rcases hd with l | ⟨a, b, c, d, c', d', rfl, rfl, ha, hb⟩ | ⟨a, b, xs, ys, rfl, rfl, ha, hb, le⟩
    · exact Or.inl l
    · refine Or.inr (Or.inl ⟨a, b, c, d, c', d', rfl, rfl, ha, hb, fun path => ?_, fun path => ?_⟩)
      · simpa [follow, select, ha, hb] using i (.car :: path)
      · simpa [follow, select, ha, hb] using i (.cdr :: path)
    · refine Or.inr (Or.inr ⟨a, b, xs, ys, rfl, rfl, ha, hb, ?_⟩)
      rw [List.forall₂_iff_get]
      refine ⟨le, fun k h1 h2 path => ?_⟩
      simpa [follow, select, ha, hb, h1, h2] using i (.index k :: path)
  · cases e

theorem HeadAgree.symm (ne : NumEquiv numEq) {x y : Val} (a : HeadAgree numEq h x y) :
    HeadAgree numEq h y x := by
  rcases a with l | ⟨a, b, c, d, c', d', rfl, rfl, ha, hb⟩ | ⟨a, b, xs, ys, rfl, rfl, ha, hb, le⟩
  · exact Or.inl (l.symm ne)
  · exact Or.inr (Or.inl ⟨b, a, c', d', c, d, rfl, rfl, hb, ha⟩)
  · exact Or.inr (Or.inr ⟨b, a, ys, xs, rfl, rfl, hb, ha, le.symm⟩)

theorem HeadAgree.trans (ne : NumEquiv numEq) {x y z : Val} (p : HeadAgree numEq h x y)
    (q : HeadAgree numEq h y z) : HeadAgree numEq h x z := by
  rcases q with l | ⟨a, b, c, d, c', d', rfl, rfl, ha, hb⟩ | ⟨a, b, xs, ys, rfl, rfl, ha, hb, le⟩
  · rcases p with l' | ⟨a, b, c, d, c', d', rfl, rfl, ha, hb⟩ |
      ⟨a, b, xs, ys, rfl, rfl, ha, hb, le⟩
    · exact Or.inl (l'.trans ne l)
    · have := (l.symm ne).compound (Or.inl ⟨_, _, hb⟩)
      subst this
      exact Or.inr (Or.inl ⟨a, b, c, d, c', d', rfl, rfl, ha, hb⟩)
    · have := (l.symm ne).compound (Or.inr ⟨_, hb⟩)
      subst this
      exact Or.inr (Or.inr ⟨a, b, xs, ys, rfl, rfl, ha, hb, le⟩)
  · rcases p with l' | ⟨a1, b1, c1, d1, c1', d1', rfl, e, ha1, hb1⟩ |
      ⟨a1, b1, xs1, ys1, rfl, e, ha1, hb1, le1⟩
    · have := l'.compound (Or.inl ⟨_, _, ha⟩)
      subst this
      exact Or.inr (Or.inl ⟨a, b, c, d, c', d', rfl, rfl, ha, hb⟩)
    · exact Or.inr (Or.inl ⟨a1, b, c1, d1, c', d', rfl, rfl, ha1, hb⟩)
    · cases e
      rw [ha] at hb1
      cases hb1
  · rcases p with l' | ⟨a1, b1, c1, d1, c1', d1', rfl, e, ha1, hb1⟩ |
      ⟨a1, b1, xs1, ys1, rfl, e, ha1, hb1, le1⟩
    · have := l'.compound (Or.inr ⟨_, ha⟩)
      subst this
      exact Or.inr (Or.inr ⟨a, b, xs, ys, rfl, rfl, ha, hb, le⟩)
    · cases e
      rw [ha] at hb1
      cases hb1
    · cases e
      rw [ha] at hb1
      cases hb1
      exact Or.inr (Or.inr ⟨a1, b, xs1, ys, rfl, rfl, ha1, hb, le1.trans le⟩)

theorem Indistinguishable.symm (ne : NumEquiv numEq) {x y : Val}
    (i : Indistinguishable numEq h x y) : Indistinguishable numEq h y x := by
  intro path
  rcases i path with ⟨u, v, e1, e2, a⟩ | ⟨e1, e2⟩
  · exact Or.inl ⟨v, u, e2, e1, a.symm ne⟩
  · exact Or.inr ⟨e2, e1⟩

theorem Indistinguishable.trans (ne : NumEquiv numEq) {x y z : Val}
    (i : Indistinguishable numEq h x y) (j : Indistinguishable numEq h y z) :
    Indistinguishable numEq h x z := by
  intro path
  rcases i path with ⟨u, v, e1, e2, a⟩ | ⟨e1, e2⟩
  · rcases j path with ⟨v', w, e3, e4, a'⟩ | ⟨e3, e4⟩
    · rw [e2] at e3
      cases e3
      exact Or.inl ⟨u, w, e1, e4, a.trans ne a'⟩
    · rw [e2] at e3; cases e3
  · rcases j path with ⟨v', w, e3, e4, a'⟩ | ⟨e3, e4⟩
    · rw [e2] at e3; cases e3
    · exact Or.inr ⟨e1, e4⟩

theorem Indistinguishable.of_leaf {x y : Val} (l : LeafEq numEq h x y) :
    Indistinguishable numEq h x y :=
  Indistinguishable.of_bisimulation (R := LeafEq numEq h) (fun _ _ l => Or.inl l) l

theorem EqvSpec.indistinguishable {x y : Val} (e : EqvSpec numEq h x y) :
    Indistinguishable numEq h x y := by
  refine Indistinguishable.of_bisimulation
    (R := fun x y => EqvSpec numEq h x y ∨ Indistinguishable numEq h x y) ?_ (Or.inl e)
  rintro x y ((l | ⟨a, b, xs, ys, rfl, rfl, ha, hb, f⟩) | i)
  · exact Or.inl l
  · exact Or.inr (Or.inr ⟨a, b, xs, ys, rfl, rfl, ha, hb, f.imp fun _ _ => Or.inr⟩)
  · rcases i.unfolds with l | ⟨a, b, c, d, c', d', e1, e2, ha, hb, p, q⟩ |
      ⟨a, b, xs, ys, e1, e2, ha, hb, f⟩
    · exact Or.inl l
    · exact Or.inr (Or.inl ⟨a, b, c, d, c', d', e1, e2, ha, hb, Or.inr p, Or.inr q⟩)
    · exact Or.inr (Or.inr ⟨a, b, xs, ys, e1, e2, ha, hb, f.imp fun _ _ => Or.inr⟩)

end Meevax.Equal
