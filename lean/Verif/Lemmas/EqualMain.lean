import Verif.Lemmas.Equal

/-! The main induction for `equal?`. -/

namespace Meevax.Equal

variable {numEq : Val → Val → Bool} {h : Heap}

/-- `equal` on fresh forests decides indistinguishability of `x` and `y`. -/
def Decides (numEq : Val → Val → Bool) (h : Heap) (x y : Val) : Prop :=
  ∃ b f, equalIn numEq h Forest.empty x y = some (b, f) ∧
    (b = true ↔ Indistinguishable numEq h x y)

theorem elementsEqual_spec {xs : List Val} : ∀ {ys : List Val}, xs.length = ys.length →
    (∀ x ∈ xs, ∀ y ∈ ys, Decides numEq h x y) →
    ∃ b, elementsEqual numEq h xs ys = some b ∧
      (b = true ↔ List.Forall₂ (Indistinguishable numEq h) xs ys) := by
  induction xs with
  | nil =>
    intro ys le _
    cases ys with
    | nil => exact ⟨true, by rw [elementsEqual], by simp⟩
    | cons => simp at le
  | cons x xs ih =>
    intro ys le d
    cases ys with
    | nil => simp at le
    | cons y ys =>
      obtain ⟨b, f, e, hb⟩ := d x (by simp) y (by simp)
      obtain ⟨b', e', hb'⟩ := ih (ys := ys) (by simpa using le)
        (fun u hu v hv => d u (by simp [hu]) v (by simp [hv]))
      rw [elementsEqual]
      cases hbb : b with
      | true =>
        refine ⟨b', by simp [e, e', hbb], ?_⟩
        rw [List.forall₂_cons, hb', ← hb]
        simp [hbb]
      | false =>
        refine ⟨false, by simp [e, hbb], ?_⟩
        rw [List.forall₂_cons, ← hb]
        simp [hbb]

/-- `eqv?` decides its specification, given that `equal?` decides on the elements of vectors. -/
theorem eqv_spec (ub : UniformBytes h) {x y : Val}
    (d : ∀ a b xs ys, x = .ref a → y = .ref b → h a = .vector xs → h b = .vector ys →
      ∀ u ∈ xs, ∀ v ∈ ys, Decides numEq h u v) :
    ∃ b, eqv numEq h x y = some b ∧ (b = true ↔ EqvSpec numEq h x y) := by
  by_cases exy : x = y
  · subst exy
    exact ⟨true, by rw [eqv]; simp [eq], by simp [EqvSpec, LeafEq.same x]⟩
  have notleaf : ∀ {x y : Val}, x ≠ y → (∀ a b, x = .ref a → y ≠ .ref b) →
      (LeafEq numEq h x y ↔ exactIntegerEquals h x y = true) := by
    intro x y ne nr
    constructor
    · intro l
      cases l with
      | same => exact (ne rfl).elim
      | integer p q =>
        cases p <;> cases q <;> simp_all [exactIntegerEquals, exactInteger]
      | string => exact (nr _ _ rfl rfl).elim
      | bytes => exact (nr _ _ rfl rfl).elim
      | ratio => exact (nr _ _ rfl rfl).elim
      | complex => exact (nr _ _ rfl rfl).elim
      | structural => exact (nr _ _ rfl rfl).elim
    · intro e
      have den : ∀ {v n}, exactInteger h v = some n → Denotes h v n := by
        intro v n hv
        cases v with
        | null => cases hv
        | fix => cases hv; exact .fix _
        | imm => cases hv
        | ref a =>
          simp only [exactInteger] at hv
          split at hv
          · cases hv
            exact .big (by assumption)
          · cases hv
      simp only [exactIntegerEquals] at e
      split at e
      · rename_i m n hm hn
        have : m = n := by simpa using e
        subst this
        exact .integer (den hm) (den hn)
      · cases e
  cases x with
  | ref a =>
    cases y with
    | ref b =>
      have nab : a ≠ b := fun e => exy (by rw [e])
      cases ha : h a with
      | vector xs =>
        cases hb : h b with
        | vector ys =>
          by_cases le : xs.length = ys.length
          · obtain ⟨r, er, hr⟩ := elementsEqual_spec le (d a b xs ys rfl rfl ha hb)
            refine ⟨r, ?_, ?_⟩
            · rw [eqv]
              simp [eq, nab, cellEqv, ha, hb, le, er, exactIntegerEquals, exactInteger]
            · rw [hr, EqvSpec, leafEq_ref]
              simp [nab, ha, hb]
          · refine ⟨false, ?_, ?_⟩
            · rw [eqv]
              simp [eq, nab, cellEqv, ha, hb, le, exactIntegerEquals, exactInteger]
            · rw [EqvSpec, leafEq_ref]
              constructor
              · intro hf; cases hf
              · rintro (l | ⟨a', b', xs', ys', e1, e2, ha', hb', f⟩)
                · simp [nab, ha, hb] at l
                · cases e1; cases e2
                  rw [ha] at ha'; rw [hb] at hb'
                  cases ha'; cases hb'
                  exact (le f.length_eq).elim
        | _ =>
          refine ⟨false, ?_, ?_⟩
          · rw [eqv]
            simp [eq, nab, cellEqv, ha, hb, exactIntegerEquals, exactInteger]
          · rw [EqvSpec, leafEq_ref]
            simp [nab, ha, hb]
      | bytes s =>
        cases hb : h b with
        | bytes t =>
          have le := ub a b s t ha hb
          refine ⟨decide (s = t), ?_, ?_⟩
          · rw [eqv]
            simp [eq, nab, cellEqv, ha, hb, le, exactIntegerEquals, exactInteger]
          · rw [EqvSpec, leafEq_ref]
            simp only [nab, ha, hb, decide_eq_true_eq]
            constructor
            · rintro rfl
              exact Or.inl (Or.inr (Or.inr (Or.inr (Or.inl ⟨s, rfl, rfl⟩))))
            · intro hh
              simp [hb] at hh
              exact hh.symm
        | _ =>
          refine ⟨false, ?_, ?_⟩
          · rw [eqv]
            simp [eq, nab, cellEqv, ha, hb, exactIntegerEquals, exactInteger]
          · rw [EqvSpec, leafEq_ref]
            simp [nab, ha, hb]
      | complex r i =>
        cases hb : h b with
        | complex r' i' =>
          refine ⟨numEq r r' && numEq i i', ?_, ?_⟩
          · rw [eqv]
            simp [eq, nab, cellEqv, ha, hb, exactIntegerEquals, exactInteger]
          · rw [EqvSpec, leafEq_ref]
            simp [nab, ha, hb]
        | _ =>
          refine ⟨false, ?_, ?_⟩
          · rw [eqv]
            simp [eq, nab, cellEqv, ha, hb, exactIntegerEquals, exactInteger]
          · rw [EqvSpec, leafEq_ref]
            simp [nab, ha, hb]
      | _ =>
        cases hb : h b with
        | _ =>
          refine ⟨(eqv numEq h (.ref a) (.ref b)).getD false, ?_, ?_⟩
          · rw [eqv.eq_def]
            simp [eq, nab, cellEqv, ha, hb, exactIntegerEquals, exactInteger]
          · rw [EqvSpec, leafEq_ref, eqv.eq_def]
            simp [eq, nab, cellEqv, ha, hb, exactIntegerEquals, exactInteger]
            try grind
    | _ =>
      refine ⟨_, by rw [eqv]; simp [eq]; rfl, ?_⟩
      rw [EqvSpec, notleaf exy (by intro a b _ h; cases h)]
      simp
  | _ =>
    refine ⟨_, by rw [eqv]; simp only [eq, exy, decide_false]; simp; rfl, ?_⟩
    rw [EqvSpec, notleaf exy (by intro a b h; cases h)]
    simp

/-! ### Bookkeeping for the recursion on pairs -/

/-- The forest's partition is the equivalence generated by the merges `G` made so far. -/
def Rep (f : Forest) (G : Val → Val → Prop) : Prop :=
  ∀ p q, Same f p q ↔ Relation.EqvGen G p q

/-- The merges `G` plus one more. -/
def Plus (G : Val → Val → Prop) (x y : Val) : Val → Val → Prop :=
  fun p q => G p q ∨ (p = x ∧ q = y)

theorem Rep.plus {f f' : Forest} {G : Val → Val → Prop} {x y : Val} (r : Rep f G)
    (m : ∀ p q, Same f' p q ↔ Merge (Same f) x y p q) : Rep f' (Plus G x y) := by
  have lift : ∀ {p q}, Relation.EqvGen G p q → Relation.EqvGen (Plus G x y) p q :=
    fun e => e.mono fun _ _ => Or.inl
  have xy : Relation.EqvGen (Plus G x y) x y := .rel _ _ (Or.inr ⟨rfl, rfl⟩)
  intro p q
  rw [m]
  constructor
  · rintro (s | ⟨s, t⟩ | ⟨s, t⟩)
    · exact lift ((r _ _).1 s)
    · exact .trans _ _ _ (.trans _ _ _ (lift ((r _ _).1 s)) xy) (.symm _ _ (lift ((r _ _).1 t)))
    · exact .trans _ _ _ (.trans _ _ _ (lift ((r _ _).1 s)) (.symm _ _ xy))
        (.symm _ _ (lift ((r _ _).1 t)))
  · intro e
    rw [← m]
    induction e with
    | rel p q g =>
      rw [m]
      rcases g with g | ⟨rfl, rfl⟩
      · exact Or.inl ((r _ _).2 (.rel _ _ g))
      · exact Or.inr (Or.inl ⟨Or.inl rfl, Or.inl rfl⟩)
    | refl => exact Or.inl rfl
    | symm _ _ _ ih => exact ih.symm
    | trans _ _ _ _ _ ih ih' => exact ih.trans ih'

open scoped Classical in
/-- How many pairs of addresses the forest still keeps apart. -/
noncomputable def apart (N : Nat) (f : Forest) : Nat :=
  ((Finset.range N ×ˢ Finset.range N).filter fun p => ¬ Same f (.ref p.1) (.ref p.2)).card

theorem apart_le {N : Nat} {f f' : Forest} (mono : ∀ p q, Same f p q → Same f' p q) :
    apart N f' ≤ apart N f := by
  classical
  apply Finset.card_le_card
  intro p hp
  simp only [Finset.mem_filter] at hp ⊢
  exact ⟨hp.1, fun s => hp.2 (mono _ _ s)⟩

theorem apart_lt {N : Nat} {f f' : Forest} (mono : ∀ p q, Same f p q → Same f' p q) {a b : Nat}
    (ha : a < N) (hb : b < N) (n : ¬ Same f (.ref a) (.ref b)) (s : Same f' (.ref a) (.ref b)) :
    apart N f' < apart N f := by
  classical
  apply Finset.card_lt_card
  refine ⟨?_, ?_⟩
  · intro p hp
    simp only [Finset.mem_filter] at hp ⊢
    exact ⟨hp.1, fun s => hp.2 (mono _ _ s)⟩
  · intro hsub
    have : (a, b) ∈ (Finset.range N ×ˢ Finset.range N).filter
        fun p => ¬ Same f (.ref p.1) (.ref p.2) := by
      simp [ha, hb, n]
    have := hsub this
    simp only [Finset.mem_filter] at this
    exact this.2 s

/-- Related by the merges or by `eqv?`. -/
def Rel (numEq : Val → Val → Bool) (h : Heap) (G : Val → Val → Prop) (x y : Val) : Prop :=
  EqvSpec numEq h x y ∨ Relation.EqvGen G x y

/-- The fields of two merged pairs are related. -/
def Settled (numEq : Val → Val → Bool) (h : Heap) (G : Val → Val → Prop) (p q : Val) : Prop :=
  ∃ a b c d c' d', p = .ref a ∧ q = .ref b ∧ h a = .pair c d ∧ h b = .pair c' d' ∧
    Rel numEq h G c c' ∧ Rel numEq h G d d'

theorem Rel.mono {G G' : Val → Val → Prop} (m : ∀ p q, G p q → G' p q) {x y : Val}
    (r : Rel numEq h G x y) : Rel numEq h G' x y := by
  rcases r with e | e
  · exact Or.inl e
  · exact Or.inr (e.mono m)

theorem Settled.mono {G G' : Val → Val → Prop} (m : ∀ p q, G p q → G' p q) {x y : Val}
    (r : Settled numEq h G x y) : Settled numEq h G' x y := by
  obtain ⟨a, b, c, d, c', d', e1, e2, ha, hb, r1, r2⟩ := r
  exact ⟨a, b, c, d, c', d', e1, e2, ha, hb, r1.mono m, r2.mono m⟩

theorem eqvGen_indistinguishable (ne : NumEquiv numEq) {G : Val → Val → Prop}
    (g : ∀ p q, G p q → Indistinguishable numEq h p q) {p q : Val} (e : Relation.EqvGen G p q) :
    Indistinguishable numEq h p q := by
  induction e with
  | rel _ _ r => exact g _ _ r
  | refl x => exact Indistinguishable.refl x
  | symm _ _ _ ih => exact ih.symm ne
  | trans _ _ _ _ _ ih ih' => exact ih.trans ne ih'

/-- What one call of `equal(x, y, forest)` guarantees. -/
structure Outcome (numEq : Val → Val → Bool) (h : Heap) (f : Forest) (G : Val → Val → Prop)
    (x y : Val) (b : Bool) (f' : Forest) (G' : Val → Val → Prop) : Prop where
  run : equalIn numEq h f x y = some (b, f')
  wf : FWF f'
  rep : Rep f' G'
  mono : ∀ p q, G p q → G' p q
  complete : Indistinguishable numEq h x y → (∀ p q, G p q → Indistinguishable numEq h p q) →
    b = true ∧ ∀ p q, G' p q → Indistinguishable numEq h p q
  sound : b = true → Rel numEq h G' x y ∧ ∀ p q, G' p q → G p q ∨ Settled numEq h G' p q

theorem equalIn_spec (ne : NumEquiv numEq) {N : Nat} (fin : Finite h N) {rank : Nat → Nat}
    (acyclic : VectorsAcyclic h rank) {ρ : Nat}
    (hP : ∀ x y, Within N x → Within N y → rankVal rank x ≤ ρ →
      ∃ b, eqv numEq h x y = some b ∧ (b = true ↔ EqvSpec numEq h x y)) :
    ∀ n f G x y, apart N f = n → FWF f → Rep f G → Within N x → Within N y → rankVal rank x ≤ ρ →
      ∃ b f' G', Outcome numEq h f G x y b f' G' := by
  intro n
  induction n using Nat.strongRecOn with
  | ind n ih =>
    intro f G x y hn wf rep wx wy rk
    obtain ⟨e, he, hs⟩ := hP x y wx wy rk
    by_cases et : e = true
    · have spec := hs.1 et
      refine ⟨true, f, G, ⟨?_, wf, rep, fun _ _ => id, fun _ g => ⟨rfl, g⟩,
        fun _ => ⟨Or.inl spec, fun _ _ => Or.inl⟩⟩⟩
      rw [equalIn.eq_def]
      simp [he, et]
    · have ef : e = false := by simpa using et
      have nspec : ¬ EqvSpec numEq h x y := fun s => et (hs.2 s)
      by_cases bp : BothPairs h x y
      · obtain ⟨a, b, c, d, c', d', rfl, rfl, ha, hb⟩ := bp
        have nxy : Val.ref a ≠ Val.ref b := by
          intro eq
          exact nspec (Or.inl (eq ▸ .same _))
        obtain ⟨u, f1, eu, wf1, ht, hf⟩ := unionFind_spec wf nxy
        cases hu : u with
        | true =>
          obtain ⟨same, keep⟩ := ht hu
          refine ⟨true, f1, G, ⟨?_, wf1, ?_, fun _ _ => id, fun _ g => ⟨rfl, g⟩,
            fun _ => ⟨Or.inr ((rep _ _).1 same), fun _ _ => Or.inl⟩⟩⟩
          · rw [equalIn.eq_def]
            simp [he, ef, ha, hb, eu, hu]
          · exact fun p q => (keep p q).trans (rep p q)
        | false =>
          obtain ⟨nsame, merge⟩ := hf hu
          have rep1 : Rep f1 (Plus G (.ref a) (.ref b)) := rep.plus merge
          have m01 : ∀ p q, Same f p q → Same f1 p q := fun p q s => (merge p q).2 (Or.inl s)
          have lt1 : apart N f1 < n := by
            rw [← hn]
            exact apart_lt m01 wx wy nsame ((merge _ _).2 (Or.inr (Or.inl ⟨Or.inl rfl, Or.inl rfl⟩)))
          obtain ⟨wc, wd⟩ := fin.pair a c d wx ha
          obtain ⟨wc', wd'⟩ := fin.pair b c' d' wy hb
          obtain ⟨rc, rd⟩ := acyclic.pair a c d ha
          obtain ⟨r1, f2, G2, o1⟩ := ih _ lt1 f1 _ c c' rfl wf1 rep1 wc wc' (Nat.le_trans rc rk)
          have m12 : ∀ p q, Same f1 p q → Same f2 p q := fun p q s =>
            (o1.rep p q).2 (((rep1 p q).1 s).mono o1.mono)
          have g02 : ∀ p q, G p q → G2 p q := fun p q g => o1.mono p q (Or.inl g)
          have ind1 : Indistinguishable numEq h (.ref a) (.ref b) →
              (∀ p q, G p q → Indistinguishable numEq h p q) →
              (∀ p q, Plus G (.ref a) (.ref b) p q → Indistinguishable numEq h p q) ∧
              Indistinguishable numEq h c c' ∧ Indistinguishable numEq h d d' := by
            intro i g
            refine ⟨?_, ?_⟩
            · rintro p q (g' | ⟨rfl, rfl⟩)
              · exact g p q g'
              · exact i
            · rcases i.unfolds with l | ⟨a1, b1, c1, d1, c1', d1', e1, e2, ha1, hb1, p, q⟩ |
                ⟨a1, b1, xs, ys, e1, e2, ha1, hb1, -⟩
              · exact (nspec (Or.inl l)).elim
              · cases e1; cases e2
                rw [ha] at ha1; rw [hb] at hb1
                cases ha1; cases hb1
                exact ⟨p, q⟩
              · cases e1
                rw [ha] at ha1
                cases ha1
          cases hr1 : r1 with
          | false =>
            refine ⟨false, f2, G2, ⟨?_, o1.wf, o1.rep, g02, fun i g => ?_, fun hh => (by cases hh)⟩⟩
            · rw [equalIn.eq_def]
              simp [he, ef, ha, hb, eu, hu, o1.run, hr1]
            · obtain ⟨g1, ic, -⟩ := ind1 i g
              have := (o1.complete ic g1).1
              rw [hr1] at this
              cases this
          | true =>
            have lt2 : apart N f2 < n := Nat.lt_of_le_of_lt (apart_le m12) lt1
            obtain ⟨r2, f3, G3, o2⟩ := ih _ lt2 f2 G2 d d' rfl o1.wf o1.rep wd wd'
              (Nat.le_trans rd rk)
            refine ⟨r2, f3, G3, ⟨?_, o2.wf, o2.rep, fun p q g => o2.mono p q (g02 p q g),
              fun i g => ?_, fun hr2 => ?_⟩⟩
            · rw [equalIn.eq_def]
              simp [he, ef, ha, hb, eu, hu, o1.run, hr1, o2.run]
            · obtain ⟨g1, ic, id⟩ := ind1 i g
              exact o2.complete id (o1.complete ic g1).2
            · obtain ⟨s1, t1⟩ := o1.sound hr1
              obtain ⟨s2, t2⟩ := o2.sound hr2
              have gxy : G3 (.ref a) (.ref b) := o2.mono _ _ (o1.mono _ _ (Or.inr ⟨rfl, rfl⟩))
              refine ⟨Or.inr (.rel _ _ gxy), fun p q g3 => ?_⟩
              rcases t2 p q g3 with g2 | st
              · rcases t1 p q g2 with (g | ⟨rfl, rfl⟩) | st
                · exact Or.inl g
                · exact Or.inr ⟨a, b, c, d, c', d', rfl, rfl, ha, hb, s1.mono o2.mono, s2⟩
                · exact Or.inr (st.mono o2.mono)
              · exact Or.inr st
      · refine ⟨false, f, G, ⟨?_, wf, rep, fun _ _ => id, fun i _ => ?_, fun hh => (by cases hh)⟩⟩
        · rw [equalIn.eq_def]
          simp only [he, ef, Option.bind_eq_bind, Option.bind_some, Bool.false_eq_true, if_false]
          split
          · split
            · exact (bp ⟨_, _, _, _, _, _, rfl, rfl, by assumption, by assumption⟩).elim
            · rfl
          · rfl
        · exfalso
          rcases i.unfolds with l | ⟨a1, b1, c1, d1, c1', d1', e1, e2, ha1, hb1, p, q⟩ |
            ⟨a1, b1, xs, ys, e1, e2, ha1, hb1, f⟩
          · exact nspec (Or.inl l)
          · exact bp ⟨a1, b1, c1, d1, c1', d1', e1, e2, ha1, hb1⟩
          · exact nspec (Or.inr ⟨a1, b1, xs, ys, e1, e2, ha1, hb1, f⟩)

/-- When every merge is settled, merged objects are indistinguishable. -/
theorem settled_indistinguishable (ne : NumEquiv numEq) {G : Val → Val → Prop}
    (st : ∀ p q, G p q → Settled numEq h G p q) {x y : Val} (r : Rel numEq h G x y) :
    Indistinguishable numEq h x y := by
  let S : Val → Val → Prop := fun p q => Indistinguishable numEq h p q ∨ G p q
  have up : ∀ {p q}, Rel numEq h G p q → Relation.EqvGen S p q := by
    rintro p q (e | e)
    · exact .rel _ _ (Or.inl e.indistinguishable)
    · exact e.mono fun _ _ => Or.inr
  have step : ∀ p q, Relation.EqvGen S p q → Unfolds numEq h (Relation.EqvGen S) p q := by
    intro p q e
    induction e with
    | rel p q s =>
      rcases s with i | g
      · rcases i.unfolds with l | ⟨a, b, c, d, c', d', e1, e2, ha, hb, r1, r2⟩ |
          ⟨a, b, xs, ys, e1, e2, ha, hb, f⟩
        · exact Or.inl l
        · exact Or.inr (Or.inl ⟨a, b, c, d, c', d', e1, e2, ha, hb, .rel _ _ (Or.inl r1),
            .rel _ _ (Or.inl r2)⟩)
        · exact Or.inr (Or.inr ⟨a, b, xs, ys, e1, e2, ha, hb,
            f.imp fun _ _ i => .rel _ _ (Or.inl i)⟩)
      · obtain ⟨a, b, c, d, c', d', e1, e2, ha, hb, r1, r2⟩ := st p q g
        exact Or.inr (Or.inl ⟨a, b, c, d, c', d', e1, e2, ha, hb, up r1, up r2⟩)
    | refl x => exact Or.inl (.same x)
    | symm p q _ ih =>
      rcases ih with l | ⟨a, b, c, d, c', d', e1, e2, ha, hb, r1, r2⟩ |
        ⟨a, b, xs, ys, e1, e2, ha, hb, f⟩
      · exact Or.inl (l.symm ne)
      · exact Or.inr (Or.inl ⟨b, a, c', d', c, d, e2, e1, hb, ha, .symm _ _ r1, .symm _ _ r2⟩)
      · exact Or.inr (Or.inr ⟨b, a, ys, xs, e2, e1, hb, ha,
          f.flip.imp fun _ _ e => .symm _ _ e⟩)
    | trans p q w _ _ ih ih' =>
      rcases ih' with l | ⟨a, b, c, d, c', d', e1, e2, ha, hb, r1, r2⟩ |
        ⟨a, b, xs, ys, e1, e2, ha, hb, f⟩
      · rcases ih with l' | ⟨a, b, c, d, c', d', e1, rfl, ha, hb, r1, r2⟩ |
          ⟨a, b, xs, ys, e1, rfl, ha, hb, f⟩
        · exact Or.inl (l'.trans ne l)
        · have := (l.symm ne).compound (Or.inl ⟨_, _, hb⟩)
          subst this
          exact Or.inr (Or.inl ⟨a, b, c, d, c', d', e1, rfl, ha, hb, r1, r2⟩)
        · have := (l.symm ne).compound (Or.inr ⟨_, hb⟩)
          subst this
          exact Or.inr (Or.inr ⟨a, b, xs, ys, e1, rfl, ha, hb, f⟩)
      · subst e1
        rcases ih with l' | ⟨a1, b1, c1, d1, c1', d1', e1, eq, ha1, hb1, r1', r2'⟩ |
          ⟨a1, b1, xs1, ys1, e1, eq, ha1, hb1, f1⟩
        · have := l'.compound (Or.inl ⟨_, _, ha⟩)
          subst this
          exact Or.inr (Or.inl ⟨a, b, c, d, c', d', rfl, e2, ha, hb, r1, r2⟩)
        · cases eq
          rw [ha] at hb1
          cases hb1
          exact Or.inr (Or.inl ⟨a1, b, c1, d1, c', d', e1, e2, ha1, hb, .trans _ _ _ r1' r1,
            .trans _ _ _ r2' r2⟩)
        · cases eq
          rw [ha] at hb1
          cases hb1
      · subst e1
        rcases ih with l' | ⟨a1, b1, c1, d1, c1', d1', e1, eq, ha1, hb1, r1', r2'⟩ |
          ⟨a1, b1, xs1, ys1, e1, eq, ha1, hb1, f1⟩
        · have := l'.compound (Or.inr ⟨_, ha⟩)
          subst this
          exact Or.inr (Or.inr ⟨a, b, xs, ys, rfl, e2, ha, hb, f⟩)
        · cases eq
          rw [ha] at hb1
          cases hb1
        · cases eq
          rw [ha] at hb1
          cases hb1
          refine Or.inr (Or.inr ⟨a1, b, xs1, ys, e1, e2, ha1, hb, ?_⟩)
          rw [List.forall₂_iff_get] at f1 f ⊢
          refine ⟨f1.1.trans f.1, fun i h1 h2 => ?_⟩
          exact .trans _ _ _ (f1.2 i h1 (f1.1 ▸ h1)) (f.2 i (f1.1 ▸ h1) h2)
  exact Indistinguishable.of_bisimulation step (up r)

/-- `equal?` terminates and decides indistinguishability, and `eqv?` its specification, on every
finite heap without cycles through vectors. -/
theorem decides (ne : NumEquiv numEq) {N : Nat} (fin : Finite h N) {rank : Nat → Nat}
    (acyclic : VectorsAcyclic h rank) (ub : UniformBytes h) :
    ∀ ρ x y, rankVal rank x ≤ ρ → Within N x → Within N y → Decides numEq h x y ∧
      ∃ b, eqv numEq h x y = some b ∧ (b = true ↔ EqvSpec numEq h x y) := by
  intro ρ
  induction ρ using Nat.strongRecOn with
  | ind ρ ih =>
    have hP : ∀ x y, Within N x → Within N y → rankVal rank x ≤ ρ →
        ∃ b, eqv numEq h x y = some b ∧ (b = true ↔ EqvSpec numEq h x y) := by
      intro x y wx wy rk
      refine eqv_spec ub ?_
      rintro a b xs ys rfl rfl ha hb u hu v hv
      have lt : rankVal rank u < ρ := Nat.lt_of_lt_of_le (acyclic.vector a xs ha u hu) rk
      exact (ih _ lt u v (Nat.le_refl _) (fin.vector a xs wx ha u hu)
        (fin.vector b ys wy hb v hv)).1
    intro x y rk wx wy
    refine ⟨?_, hP x y wx wy rk⟩
    have rep0 : Rep Forest.empty (fun _ _ => False) := by
      intro p q
      constructor
      · rintro (rfl | ⟨r, ⟨b, hb, -⟩, -⟩)
        · exact .refl _
        · cases hb
      · intro e
        induction e with
        | rel _ _ f => exact f.elim
        | refl => exact Or.inl rfl
        | symm _ _ _ i => exact i.symm
        | trans _ _ _ _ _ i j => exact i.trans j
    obtain ⟨b, f', G', o⟩ := equalIn_spec ne fin acyclic hP _ Forest.empty (fun _ _ => False) x y
      rfl FWF.empty rep0 wx wy rk
    refine ⟨b, f', o.run, fun hb => ?_, fun i => (o.complete i fun _ _ f => f.elim).1⟩
    obtain ⟨r, st⟩ := o.sound hb
    refine settled_indistinguishable ne (G := G') ?_ r
    intro p q g
    rcases st p q g with f | s
    · exact f.elim
    · exact s

end Meevax.Equal
