import Verif.Spec.Equal

/-! The union-find forest of `equal?`: `union_find` maintains a partition. -/

namespace Meevax.Equal

/-- Following links from a box leads to a root. -/
inductive Root (node : Nat → Node) : Nat → Nat → Prop
  | root {b k : Nat} : node b = .rank k → Root node b b
  | link {b c r : Nat} : node b = .link c → Root node c r → Root node b r

theorem Root.isRoot {node : Nat → Node} {b r : Nat} (p : Root node b r) : ∃ k, node r = .rank k := by
  induction p with
  | root e => exact ⟨_, e⟩
  | link _ _ ih => exact ih

theorem Root.det {node : Nat → Node} {b r s : Nat} (p : Root node b r) (q : Root node b s) :
    r = s := by
  induction p with
  | root e =>
    cases q with
    | root => rfl
    | link e' => rw [e] at e'; cases e'
  | link e _ ih =>
    cases q with
    | root e' => rw [e] at e'; cases e'
    | link e' q => rw [e] at e'; cases e'; exact ih q

theorem Root.trans {node : Nat → Node} {b r s : Nat} (p : Root node b r) (q : Root node r s) :
    Root node b s := by
  obtain ⟨k, hk⟩ := p.isRoot
  cases q with
  | root => exact p
  | link e => rw [hk] at e; cases e

theorem Root.compress {node : Nat → Node} {b r d : Nat} (hb : node b = .link d)
    (p : Root node b r) (c s : Nat) : Root (setNode node b (.link r)) c s ↔ Root node c s := by
  obtain ⟨k, hk⟩ := p.isRoot
  have ne : r ≠ b := by
    intro e
    rw [e, hb] at hk
    cases hk
  constructor
  · intro q
    induction q with
    | @root c k' e =>
      by_cases hc : c = b
      · simp [setNode, hc] at e
      · simp only [setNode, hc, if_false] at e
        exact .root e
    | @link c c' s e _ ih =>
      by_cases hc : c = b
      · simp only [setNode, hc, if_true, Node.link.injEq] at e
        subst e
        rw [hc]
        exact p.trans ih
      · simp only [setNode, hc, if_false] at e
        exact .link e ih
  · intro q
    induction q with
    | @root c k' e =>
      have hc : c ≠ b := by
        intro hh
        rw [hh, hb] at e
        cases e
      exact .root (k := k') (by simp [setNode, hc, e])
    | @link c c' s e q ih =>
      by_cases hc : c = b
      · subst hc
        have : s = r := (Root.link e q).det p
        subst this
        refine .link (c := s) (by simp [setNode]) (.root (k := k) (by simp [setNode, ne, hk]))
      · exact .link (c := c') (by simp [setNode, hc, e]) ih

/-- Links stay among the boxes that have been made. -/
def Below (node : Nat → Node) (n : Nat) : Prop := ∀ b c, b < n → node b = .link c → c < n

theorem Root.lt {node : Nat → Node} {n b r : Nat} (hb : Below node n) (p : Root node b r) :
    b < n → r < n := by
  induction p with
  | root => exact id
  | link e _ ih => exact fun h => ih (hb _ _ h e)

/-- `find` returns the root and changes neither the roots nor the ranks. -/
theorem find_spec {node : Nat → Node} {n b r : Nat} (p : Root node b r) (hn : Below node n)
    (lt : b < n) :
    ∃ node', find node b = some (r, node') ∧ (∀ c s, Root node' c s ↔ Root node c s) ∧
      Below node' n ∧ (∀ c k, node' c = .rank k ↔ node c = .rank k) := by
  induction p with
  | root e => exact ⟨node, by rw [find, e], fun _ _ => Iff.rfl, hn, fun _ _ => Iff.rfl⟩
  | @link b c r e p ih =>
    obtain ⟨n', e1, hr, hb', hk⟩ := ih (hn _ _ lt e)
    have hl : ∃ d, n' b = .link d := by
      cases hnb : n' b with
      | link d => exact ⟨d, rfl⟩
      | rank k => rw [(hk b k).1 hnb] at e; cases e
    obtain ⟨d, hd⟩ := hl
    have pb : Root n' b r := (hr b r).2 (.link e p)
    refine ⟨setNode n' b (.link r), ?_, ?_, ?_, ?_⟩
    · rw [find, e]
      simp [e1]
    · exact fun c s => (Root.compress hd pb c s).trans (hr c s)
    · intro b' c' hlt he
      by_cases hbb : b' = b
      · simp only [setNode, hbb, if_true, Node.link.injEq] at he
        rw [← he]
        exact (Root.link e p).lt hn lt
      · simp only [setNode, hbb, if_false] at he
        exact hb' b' c' hlt he
    · intro c' k
      by_cases hbb : c' = b
      · simp [setNode, hbb, e]
      · simp only [setNode, hbb, if_false]
        exact hk c' k

theorem root_union {node : Nat → Node} {rx ry k kx ky : Nat} (hx : node rx = .rank kx)
    (hy : node ry = .rank ky) (ne : rx ≠ ry) {node' : Nat → Node}
    (h1 : node' rx = .link ry) (h2 : node' ry = .rank k)
    (h3 : ∀ c, c ≠ rx → c ≠ ry → node' c = node c) (c s : Nat) :
    Root node' c s ↔ ∃ t, Root node c t ∧ s = if t = rx then ry else t := by
  constructor
  · intro q
    induction q with
    | @root c k' e =>
      have hc : c ≠ rx := by
        intro hh
        rw [hh, h1] at e
        cases e
      by_cases hcy : c = ry
      · exact ⟨ry, by rw [hcy]; exact .root hy, by simp [hcy, Ne.symm ne]⟩
      · exact ⟨c, .root (by rw [← h3 c hc hcy]; exact e), by simp [hc]⟩
    | @link c c' s e q ih =>
      by_cases hc : c = rx
      · subst hc
        rw [h1] at e
        cases e
        have : s = ry := by
          cases q with
          | root => rfl
          | link e' => rw [h2] at e'; cases e'
        exact ⟨c, .root hx, by simp [this]⟩
      · have hcy : c ≠ ry := by
          intro hh
          rw [hh, h2] at e
          cases e
        obtain ⟨t, ht, es⟩ := ih
        exact ⟨t, .link (by rw [← h3 c hc hcy]; exact e) ht, es⟩
  · rintro ⟨t, ht, rfl⟩
    induction ht with
    | @root c k' e =>
      by_cases hc : c = rx
      · simp only [hc, if_true]
        exact .link h1 (.root h2)
      · simp only [hc, if_false]
        by_cases hcy : c = ry
        · rw [hcy]; exact .root h2
        · exact .root (by rw [h3 c hc hcy]; exact e)
    | @link c c' t e q ih =>
      have hc : c ≠ rx := by
        intro hh
        rw [hh, hx] at e
        cases e
      have hcy : c ≠ ry := by
        intro hh
        rw [hh, hy] at e
        cases e
      exact .link (by rw [h3 c hc hcy]; exact e) ih

/-- The forest's invariant. -/
structure FWF (f : Forest) : Prop where
  below : Below f.node f.count
  mapped : ∀ v b, f.map v = some b → b < f.count ∧ ∃ r, Root f.node b r

/-- `v` belongs to the class with root `r`. -/
def Cls (f : Forest) (v : Val) (r : Nat) : Prop := ∃ b, f.map v = some b ∧ Root f.node b r

theorem Cls.det {f : Forest} {v : Val} {r s : Nat} (p : Cls f v r) (q : Cls f v s) : r = s := by
  obtain ⟨b, hb, p⟩ := p
  obtain ⟨c, hc, q⟩ := q
  rw [hb] at hc
  cases hc
  exact p.det q

/-- `p` and `q` are in one class. -/
def Same (f : Forest) (p q : Val) : Prop := p = q ∨ ∃ r, Cls f p r ∧ Cls f q r

theorem Same.symm {f : Forest} {p q : Val} (s : Same f p q) : Same f q p := by
  rcases s with rfl | ⟨r, a, b⟩
  · exact Or.inl rfl
  · exact Or.inr ⟨r, b, a⟩

theorem Same.trans {f : Forest} {p q w : Val} (s : Same f p q) (t : Same f q w) : Same f p w := by
  rcases s with rfl | ⟨r, a, b⟩
  · exact t
  rcases t with rfl | ⟨r', a', b'⟩
  · exact Or.inr ⟨r, a, b⟩
  · rw [← b.det a'] at b'
    exact Or.inr ⟨r, a, b'⟩

theorem FWF.empty : FWF Forest.empty :=
  ⟨fun _ _ h => (by cases h), fun _ _ h => (by cases h)⟩

/-- The partition obtained by merging the classes of `x` and `y`. -/
def Merge (S : Val → Val → Prop) (x y p q : Val) : Prop :=
  S p q ∨ (S p x ∧ S q y) ∨ (S p y ∧ S q x)

theorem merge_of_roots {f f' : Forest} {x y : Val} {rx ry : Nat} (cx : Cls f x rx)
    (cy : Cls f y ry) (hc : ∀ v s, Cls f' v s ↔ ∃ t, Cls f v t ∧ s = if t = rx then ry else t)
    (p q : Val) : Same f' p q ↔ Merge (Same f) x y p q := by
  constructor
  · rintro (rfl | ⟨r, a, b⟩)
    · exact Or.inl (Or.inl rfl)
    · obtain ⟨t, ht, e⟩ := (hc p r).1 a
      obtain ⟨u, hu, e'⟩ := (hc q r).1 b
      by_cases h1 : t = rx <;> by_cases h2 : u = rx
      · subst h1; subst h2
        exact Or.inl (Or.inr ⟨_, ht, hu⟩)
      · simp only [h1, h2, if_true, if_false] at e e'
        subst h1
        rw [← e', e] at hu
        exact Or.inr (Or.inl ⟨Or.inr ⟨_, ht, cx⟩, Or.inr ⟨_, hu, cy⟩⟩)
      · simp only [h1, h2, if_true, if_false] at e e'
        subst h2
        rw [← e, e'] at ht
        exact Or.inr (Or.inr ⟨Or.inr ⟨_, ht, cy⟩, Or.inr ⟨_, hu, cx⟩⟩)
      · simp only [h1, h2, if_false] at e e'
        rw [← e] at ht
        rw [← e'] at hu
        exact Or.inl (Or.inr ⟨_, ht, hu⟩)
  · have lift : ∀ {v w}, Same f v w → Same f' v w := by
      rintro v w (rfl | ⟨r, a, b⟩)
      · exact Or.inl rfl
      · exact Or.inr ⟨_, (hc v _).2 ⟨r, a, rfl⟩, (hc w _).2 ⟨r, b, rfl⟩⟩
    have xy : Same f' x y := by
      refine Or.inr ⟨ry, (hc x _).2 ⟨rx, cx, by simp⟩, (hc y _).2 ⟨ry, cy, ?_⟩⟩
      by_cases e : ry = rx <;> simp [e]
    rintro (s | ⟨s, t⟩ | ⟨s, t⟩)
    · exact lift s
    · exact ((lift s).trans xy).trans (lift t).symm
    · exact ((lift s).trans xy.symm).trans (lift t).symm

theorem merge_of_join {f f' : Forest} {x y : Val} {r0 : Nat}
    (hx : ∀ s, Cls f' x s ↔ s = r0) (hy : ∀ s, Cls f' y s ↔ s = r0)
    (ho : ∀ v s, v ≠ x → v ≠ y → (Cls f' v s ↔ Cls f v s))
    (hx' : (∀ s, ¬ Cls f x s) ∨ Cls f x r0) (hy' : (∀ s, ¬ Cls f y s) ∨ Cls f y r0)
    (hn : ∀ v, Cls f v r0 → Cls f x r0 ∨ Cls f y r0) (p q : Val) :
    Same f' p q ↔ Merge (Same f) x y p q := by
  have xy : Same f' x y := Or.inr ⟨r0, (hx _).2 rfl, (hy _).2 rfl⟩
  have lift : ∀ {v w}, Same f v w → Same f' v w := by
    rintro v w (rfl | ⟨r, a, b⟩)
    · exact Or.inl rfl
    · refine Or.inr ⟨r, ?_, ?_⟩
      · by_cases e1 : v = x
        · subst e1
          rcases hx' with h | h
          · exact (h _ a).elim
          · exact (hx _).2 (a.det h)
        · by_cases e2 : v = y
          · subst e2
            rcases hy' with h | h
            · exact (h _ a).elim
            · exact (hy _).2 (a.det h)
          · exact (ho _ _ e1 e2).2 a
      · by_cases e1 : w = x
        · subst e1
          rcases hx' with h | h
          · exact (h _ b).elim
          · exact (hx _).2 (b.det h)
        · by_cases e2 : w = y
          · subst e2
            rcases hy' with h | h
            · exact (h _ b).elim
            · exact (hy _).2 (b.det h)
          · exact (ho _ _ e1 e2).2 b
  -- every class with root `r0` in `f'` was already next to `x` or to `y`
  have near : ∀ v, Cls f' v r0 → Same f v x ∨ Same f v y := by
    intro v hv
    by_cases e1 : v = x
    · exact Or.inl (Or.inl e1)
    · by_cases e2 : v = y
      · exact Or.inr (Or.inl e2)
      · have hv' := (ho _ _ e1 e2).1 hv
        rcases hn v hv' with h | h
        · exact Or.inl (Or.inr ⟨r0, hv', h⟩)
        · exact Or.inr (Or.inr ⟨r0, hv', h⟩)
  constructor
  · rintro (rfl | ⟨r, a, b⟩)
    · exact Or.inl (Or.inl rfl)
    · by_cases er : r = r0
      · subst er
        rcases near p a with sp | sp <;> rcases near q b with sq | sq
        · exact Or.inl (sp.trans sq.symm)
        · exact Or.inr (Or.inl ⟨sp, sq⟩)
        · exact Or.inr (Or.inr ⟨sp, sq⟩)
        · exact Or.inl (sp.trans sq.symm)
      · have out : ∀ v, Cls f' v r → Cls f v r := by
          intro v hv
          by_cases e1 : v = x
          · subst e1; exact (er ((hx _).1 hv)).elim
          · by_cases e2 : v = y
            · subst e2; exact (er ((hy _).1 hv)).elim
            · exact (ho _ _ e1 e2).1 hv
        exact Or.inl (Or.inr ⟨r, out p a, out q b⟩)
  · rintro (s | ⟨s, t⟩ | ⟨s, t⟩)
    · exact lift s
    · exact ((lift s).trans xy).trans (lift t).symm
    · exact ((lift s).trans xy.symm).trans (lift t).symm

theorem Root.setFresh {node : Nat → Node} {n : Nat} (hn : Below node n) (nd : Node) {b r : Nat}
    (lt : b < n) : Root (setNode node n nd) b r ↔ Root node b r := by
  constructor
  · intro q
    induction q with
    | @root c k e =>
      have : c ≠ n := Nat.ne_of_lt lt
      simp only [setNode, this, if_false] at e
      exact .root e
    | @link c d s e _ ih =>
      have : c ≠ n := Nat.ne_of_lt lt
      simp only [setNode, this, if_false] at e
      exact .link e (ih (hn _ _ lt e))
  · intro q
    induction q with
    | @root c k e =>
      have : c ≠ n := Nat.ne_of_lt lt
      exact .root (k := k) (by simp [setNode, this, e])
    | @link c d s e _ ih =>
      have : c ≠ n := Nat.ne_of_lt lt
      exact .link (c := d) (by simp [setNode, this, e]) (ih (hn _ _ lt e))

/-- `union_find` answers whether two objects are in one class, and if not merges their classes. -/
theorem unionFind_spec {f : Forest} (wf : FWF f) {x y : Val} (ne : x ≠ y) :
    ∃ u f', unionFind f x y = some (u, f') ∧ FWF f' ∧
      (u = true → Same f x y ∧ ∀ p q, Same f' p q ↔ Same f p q) ∧
      (u = false → ¬ Same f x y ∧ ∀ p q, Same f' p q ↔ Merge (Same f) x y p q) := by
  cases mx : f.map x with
  | some bx =>
    obtain ⟨ltx, rx, px⟩ := wf.mapped x bx mx
    obtain ⟨n1, e1, r1, b1, k1⟩ := find_spec px wf.below ltx
    have cx : Cls f x rx := ⟨bx, mx, px⟩
    cases my : f.map y with
    | some by' =>
      obtain ⟨lty, ry, py⟩ := wf.mapped y by' my
      obtain ⟨n2, e2, r2, b2, k2⟩ := find_spec ((r1 _ _).2 py) b1 lty
      have cy : Cls f y ry := ⟨by', my, py⟩
      have rr : ∀ c s, Root n2 c s ↔ Root f.node c s := fun c s => (r2 c s).trans (r1 c s)
      by_cases er : rx = ry
      · refine ⟨true, { f with node := n2 }, ?_, ⟨b2, ?_⟩, fun _ => ⟨?_, ?_⟩, fun h => (by cases h)⟩
        · simp [unionFind, mx, my, e1, e2, er]
        · intro v b hv
          obtain ⟨l, r, p⟩ := wf.mapped v b hv
          exact ⟨l, r, (rr _ _).2 p⟩
        · exact Or.inr ⟨rx, cx, er ▸ cy⟩
        · intro p q
          simp only [Same, Cls, rr]
      · obtain ⟨kx, hkx⟩ := ((rr _ _).2 px).isRoot
        obtain ⟨ky, hky⟩ := ((rr _ _).2 py).isRoot
        have lrx : rx < f.count := px.lt wf.below ltx
        have lry : ry < f.count := py.lt wf.below lty
        have nsame : ¬ Same f x y := by
          rintro (h | ⟨r, a, b⟩)
          · exact ne h
          · exact er ((cx.det a).trans (b.det cy))
        by_cases hr : rankOf (n2 rx) > rankOf (n2 ry)
        · let nn := setNode (setNode n2 rx (.rank (rankOf (n2 rx) + rankOf (n2 ry)))) ry (.link rx)
          have hu : ∀ c s, Root nn c s ↔ ∃ t, Root f.node c t ∧ s = if t = ry then rx else t := by
            intro c s
            rw [root_union (node := n2) hky hkx (Ne.symm er) (node' := nn)
              (k := rankOf (n2 rx) + rankOf (n2 ry)) (by simp [nn, setNode])
              (by simp [nn, setNode, er]) (by intro c h1 h2; simp [nn, setNode, h1, h2])]
            simp only [rr]
          refine ⟨false, { f with node := nn }, ?_, ⟨?_, ?_⟩, fun h => (by cases h),
            fun _ => ⟨nsame, ?_⟩⟩
          · simp [unionFind, mx, my, e1, e2, er, hr, nn]
          · intro b c lt he
            by_cases hb1 : b = ry
            · simp [nn, setNode, hb1] at he
              exact he ▸ lrx
            · by_cases hb2 : b = rx
              · simp [nn, setNode, hb2, er] at he
              · simp [nn, setNode, hb1, hb2] at he
                exact b2 b c lt he
          · intro v b hv
            obtain ⟨l, r, p⟩ := wf.mapped v b hv
            exact ⟨l, _, (hu _ _).2 ⟨r, p, rfl⟩⟩
          · intro p q
            rw [merge_of_roots (f := f) (f' := { f with node := nn }) cy cx]
            · simp only [Merge]
              rw [or_comm (a := Same f p y ∧ Same f q x)]
            · intro v s
              constructor
              · rintro ⟨b, hb, p⟩
                obtain ⟨t, ht, es⟩ := (hu _ _).1 p
                exact ⟨t, ⟨b, hb, ht⟩, es⟩
              · rintro ⟨t, ⟨b, hb, ht⟩, es⟩
                exact ⟨b, hb, (hu _ _).2 ⟨t, ht, es⟩⟩
        · let nn := setNode (setNode n2 rx (.link ry)) ry (.rank (rankOf (n2 rx) + rankOf (n2 ry)))
          have hu : ∀ c s, Root nn c s ↔ ∃ t, Root f.node c t ∧ s = if t = rx then ry else t := by
            intro c s
            rw [root_union (node := n2) hkx hky er (node' := nn)
              (k := rankOf (n2 rx) + rankOf (n2 ry)) (by simp [nn, setNode, er])
              (by simp [nn, setNode]) (by intro c h1 h2; simp [nn, setNode, h1, h2])]
            simp only [rr]
          refine ⟨false, { f with node := nn }, ?_, ⟨?_, ?_⟩, fun h => (by cases h),
            fun _ => ⟨nsame, ?_⟩⟩
          · simp only [unionFind, mx, my, e1, e2, Option.bind_eq_bind, Option.bind_some, er, if_false,
              hr, nn]
          · intro b c lt he
            by_cases hb1 : b = ry
            · simp [nn, setNode, hb1] at he
            · by_cases hb2 : b = rx
              · simp [nn, setNode, hb2, er] at he
                exact he ▸ lry
              · simp [nn, setNode, hb1, hb2] at he
                exact b2 b c lt he
          · intro v b hv
            obtain ⟨l, r, p⟩ := wf.mapped v b hv
            exact ⟨l, _, (hu _ _).2 ⟨r, p, rfl⟩⟩
          · intro p q
            rw [merge_of_roots (f := f) (f' := { f with node := nn }) cx cy]
            intro v s
            constructor
            · rintro ⟨b, hb, p⟩
              obtain ⟨t, ht, es⟩ := (hu _ _).1 p
              exact ⟨t, ⟨b, hb, ht⟩, es⟩
            · rintro ⟨t, ⟨b, hb, ht⟩, es⟩
              exact ⟨b, hb, (hu _ _).2 ⟨t, ht, es⟩⟩
    | none =>
      have ncy : ∀ s, ¬ Cls f y s := by
        rintro s ⟨b, hb, -⟩
        rw [my] at hb
        cases hb
      let f' : Forest := { f with node := n1, map := fun v => if v = y then some rx else f.map v }
      have lrx : rx < f.count := px.lt wf.below ltx
      obtain ⟨kx, hkx⟩ := ((r1 _ _).2 px).isRoot
      refine ⟨false, f', ?_, ⟨b1, ?_⟩, fun h => (by cases h), fun _ => ⟨?_, ?_⟩⟩
      · simp [unionFind, mx, my, e1, f']
      · intro v b hv
        by_cases hvy : v = y
        · simp [f', hvy] at hv
          subst hv
          exact ⟨lrx, _, .root hkx⟩
        · simp [f', hvy] at hv
          obtain ⟨l, r, p⟩ := wf.mapped v b hv
          exact ⟨l, r, (r1 _ _).2 p⟩
      · rintro (h | ⟨r, a, b⟩)
        · exact ne h
        · exact ncy _ b
      · have other : ∀ v s, v ≠ y → (Cls f' v s ↔ Cls f v s) := by
          intro v s hvy
          simp only [Cls, f', hvy, if_false, r1]
        refine merge_of_join (r0 := rx) ?_ ?_ (fun v s _ h => other v s h) (Or.inr cx)
          (Or.inl ncy) (fun _ _ => Or.inl cx)
        · intro s
          rw [other x s ne]
          exact ⟨fun h => h.det cx, fun h => h ▸ cx⟩
        · intro s
          constructor
          · rintro ⟨b, hb, p⟩
            simp [f'] at hb
            subst hb
            exact p.det (.root hkx)
          · rintro rfl
            exact ⟨s, by simp [f'], .root hkx⟩
  | none =>
    have ncx : ∀ s, ¬ Cls f x s := by
      rintro s ⟨b, hb, -⟩
      rw [mx] at hb
      cases hb
    have nsame : ¬ Same f x y := by
      rintro (h | ⟨r, a, b⟩)
      · exact ne h
      · exact ncx _ a
    cases my : f.map y with
    | some by' =>
      obtain ⟨lty, ry, py⟩ := wf.mapped y by' my
      obtain ⟨n1, e1, r1, b1, k1⟩ := find_spec py wf.below lty
      have cy : Cls f y ry := ⟨by', my, py⟩
      let f' : Forest := { f with node := n1, map := fun v => if v = x then some ry else f.map v }
      have lry : ry < f.count := py.lt wf.below lty
      obtain ⟨ky, hky⟩ := ((r1 _ _).2 py).isRoot
      refine ⟨false, f', ?_, ⟨b1, ?_⟩, fun h => (by cases h), fun _ => ⟨nsame, ?_⟩⟩
      · simp [unionFind, mx, my, e1, f']
      · intro v b hv
        by_cases hvx : v = x
        · simp [f', hvx] at hv
          subst hv
          exact ⟨lry, _, .root hky⟩
        · simp [f', hvx] at hv
          obtain ⟨l, r, p⟩ := wf.mapped v b hv
          exact ⟨l, r, (r1 _ _).2 p⟩
      · have other : ∀ v s, v ≠ x → (Cls f' v s ↔ Cls f v s) := by
          intro v s hvx
          simp only [Cls, f', hvx, if_false, r1]
        refine merge_of_join (r0 := ry) ?_ ?_ (fun v s h _ => other v s h) (Or.inl ncx)
          (Or.inr cy) (fun _ _ => Or.inr cy)
        · intro s
          constructor
          · rintro ⟨b, hb, p⟩
            simp [f'] at hb
            subst hb
            exact p.det (.root hky)
          · rintro rfl
            exact ⟨s, by simp [f'], .root hky⟩
        · intro s
          rw [other y s (Ne.symm ne)]
          exact ⟨fun h => h.det cy, fun h => h ▸ cy⟩
    | none =>
      have ncy : ∀ s, ¬ Cls f y s := by
        rintro s ⟨b, hb, -⟩
        rw [my] at hb
        cases hb
      let f' : Forest :=
        { map := fun v => if v = x then some f.count else if v = y then some f.count else f.map v
          node := setNode f.node f.count (.rank 1)
          count := f.count + 1 }
      have hroot : Root f'.node f.count f.count := .root (k := 1) (by simp [f', setNode])
      refine ⟨false, f', ?_, ⟨?_, ?_⟩, fun h => (by cases h), fun _ => ⟨nsame, ?_⟩⟩
      · simp [unionFind, mx, my, f']
      · intro b c lt he
        by_cases hb : b = f.count
        · simp [f', setNode, hb] at he
        · have : b < f.count := by
            simp only [f'] at lt
            omega
          simp [f', setNode, hb] at he
          exact Nat.lt_succ_of_lt (wf.below b c this he)
      · intro v b hv
        by_cases h1 : v = x
        · simp [f', h1] at hv
          subst hv
          exact ⟨Nat.lt_succ_self _, _, hroot⟩
        · by_cases h2 : v = y
          · simp [f', h2] at hv
            subst hv
            exact ⟨Nat.lt_succ_self _, _, hroot⟩
          · simp [f', h1, h2] at hv
            obtain ⟨l, r, p⟩ := wf.mapped v b hv
            exact ⟨Nat.lt_succ_of_lt l, r, (Root.setFresh wf.below _ l).2 p⟩
      · refine merge_of_join (r0 := f.count) ?_ ?_ ?_ (Or.inl ncx) (Or.inl ncy) ?_
        · intro s
          constructor
          · rintro ⟨b, hb, p⟩
            simp [f'] at hb
            subst hb
            exact p.det hroot
          · rintro rfl
            exact ⟨f.count, by simp [f'], hroot⟩
        · intro s
          constructor
          · rintro ⟨b, hb, p⟩
            simp [f'] at hb
            subst hb
            exact p.det hroot
          · rintro rfl
            exact ⟨f.count, by simp [f'], hroot⟩
        · intro v s h1 h2
          constructor
          · rintro ⟨b, hb, p⟩
            simp [f', h1, h2] at hb
            exact ⟨b, hb, (Root.setFresh wf.below _ (wf.mapped v b hb).1).1 p⟩
          · rintro ⟨b, hb, p⟩
            exact ⟨b, by simp [f', h1, h2, hb], (Root.setFresh wf.below _ (wf.mapped v b hb).1).2 p⟩
        · rintro v ⟨b, hb, p⟩
          have := p.lt wf.below (wf.mapped v b hb).1
          omega

end Meevax.Equal
