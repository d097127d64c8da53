import Verif.Spec.Compare

/-!
C100: `compare`, by which macros recognise their literals (`else`, `=>`, the literals of
`syntax-rules`).
-/

namespace Meevax.Expand

open Secd (Name)
open Spec

/-! ## The search of `identify` finds the innermost binding -/

theorem sym_ne_macro (x : Name) (k : Form) (t : Nat) : Form.sym x ≠ .macro k t := by
  intro h; cases h

theorem scanFormals_binds {x : Name} {i : Nat} : ∀ (fs : Form) (j : Nat),
    (∃ r, Binds (.sym x) fs r ∧
      ((r = none ∧ ∃ k, scanFormals (.sym x) i fs j = some (.relative i k) ∨
          scanFormals (.sym x) i fs j = some (.variadic i k)) ∨
        ∃ t, r = some t ∧ scanFormals (.sym x) i fs j = some (.macro t))) ∨
    (Skips (.sym x) fs ∧ scanFormals (.sym x) i fs j = none) := by
  intro fs
  induction fs with
  | cons a d _ ih =>
    intro j
    have later : ∀ {r}, a ≠ .sym x → (∀ t, a ≠ .macro (.sym x) t) → Binds (.sym x) d r →
        Binds (.sym x) (.cons a d) r := fun h hk hd => .later h hk hd
    by_cases hv : a = .sym x
    · subst hv
      exact .inl ⟨none, .loc d, .inl ⟨rfl, j, .inl (by simp [scanFormals])⟩⟩
    · by_cases hk : ∃ t, a = .macro (.sym x) t
      · obtain ⟨t, rfl⟩ := hk
        exact .inl ⟨some t, .keyword t d, .inr ⟨t, rfl, by simp [scanFormals]⟩⟩
      · have hk' : ∀ t, a ≠ .macro (.sym x) t := fun t h => hk ⟨t, h⟩
        have hs : scanFormals (.sym x) i (.cons a d) j = scanFormals (.sym x) i d (j + 1) := by
          cases a with
          | «macro» k t =>
            have : k ≠ .sym x := fun h => hk' t (by rw [h])
            simp [scanFormals, this]
          | sym y => simp_all [scanFormals]
          | _ => simp [scanFormals]
        rw [hs]
        rcases ih (j + 1) with ⟨r, hb, hr⟩ | ⟨hn, hr⟩
        · exact .inl ⟨r, later hv hk' hb, hr⟩
        · refine .inr ⟨fun r hb => ?_, hr⟩
          cases hb with
          | loc => exact hv rfl
          | keyword t => exact hk' t rfl
          | later _ _ hd => exact hn r hd
  | sym y =>
    intro j
    by_cases h : y = x
    · subst h
      exact .inl ⟨none, .rest, .inl ⟨rfl, j, .inr (by simp [scanFormals, Form.isIdentifier])⟩⟩
    · refine .inr ⟨fun r hb => ?_, by simp [scanFormals, h]⟩
      cases hb; exact h rfl
  | _ =>
    intro j
    refine .inr ⟨fun r hb => ?_, ?_⟩
    · cases hb
    · simp [scanFormals, Form.isIdentifier]

/-- The outcome of a search and the meaning it stands for. -/
inductive Outcome (x : Name) : Option Identity → Meaning → Prop
  | relative (i j : Nat) : Outcome x (some (.relative i j)) .loc
  | variadic (i j : Nat) : Outcome x (some (.variadic i j)) .loc
  | keyword (t : Nat) : Outcome x (some (.macro t)) (.keyword t)
  | global (g : Nat) : Outcome x (some (.absolute g)) (.global g)
  | unbound : Outcome x none (.unbound x)

theorem scan_means {H : Nat → Env} {x : Name} {s : Name → Option Nat} :
    ∀ (bv : List Form) (i : Nat), ∃ M, Means x s bv M ∧
      Outcome x (match scan (.sym x) bv i with
        | some r => some r
        | none => (s x).map .absolute) M
  | [], i => by
    rcases h : s x with _ | g
    · exact ⟨_, .unbound h, by simp [scan, Outcome.unbound]⟩
    · exact ⟨_, .global h, by simp [scan, Outcome.global]⟩
  | fs :: bv, i => by
    rcases scanFormals_binds (x := x) (i := i) fs 0 with ⟨r, hb, hr⟩ | ⟨hn, hr⟩
    · rcases hr with ⟨rfl, k, hr | hr⟩ | ⟨t, rfl, hr⟩
      · exact ⟨_, .loc hb, by simp only [scan, hr]; exact .relative _ _⟩
      · exact ⟨_, .loc hb, by simp only [scan, hr]; exact .variadic _ _⟩
      · exact ⟨_, .keyword hb, by simp only [scan, hr]; exact .keyword _⟩
    · obtain ⟨M, hm, ho⟩ := scan_means (H := H) (s := s) bv (i + 1)
      exact ⟨M, .outer hn hm, by simpa only [scan, hr] using ho⟩

theorem identify_sym (H : Nat → Env) (s : Name → Option Nat) (x : Name) (bv : List Form) :
    identify H s (.sym x) bv = match scan (.sym x) bv 0 with
      | some r => some r
      | none => (s x).map .absolute := by
  rw [identify.eq_def]
  cases scan (.sym x) bv 0 <;> rfl

theorem Binds.unique {x : Name} {fs : Form} {r r' : Option Nat} (h : Binds (.sym x) fs r)
    (h' : Binds (.sym x) fs r') : r = r' := by
  induction h with
  | loc =>
    cases h' with
    | loc => rfl
    | later h => exact absurd rfl h
  | keyword t =>
    cases h' with
    | keyword => rfl
    | later _ hk => exact absurd rfl (hk t)
  | later h hk _ ih =>
    cases h' with
    | loc => exact absurd rfl h
    | keyword t => exact absurd rfl (hk t)
    | later _ _ hd => exact ih hd
  | rest => cases h'; rfl

theorem Means.unique {x : Name} {s : Name → Option Nat} {bv : List Form} {M N : Meaning}
    (h : Means x s bv M) (h' : Means x s bv N) : M = N := by
  induction h with
  | loc h =>
    cases h' with
    | loc => rfl
    | keyword h' => cases Binds.unique h h'
    | outer hn => exact absurd h (hn _)
  | keyword h =>
    cases h' with
    | loc h' => cases Binds.unique h h'
    | keyword h' => cases Binds.unique h h'; rfl
    | outer hn => exact absurd h (hn _)
  | outer hn _ ih =>
    cases h' with
    | loc h' => exact absurd h' (hn _)
    | keyword h' => exact absurd h' (hn _)
    | outer _ hm => exact ih hm
  | global h =>
    cases h' with
    | global h' => rw [h] at h'; cases h'; rfl
    | unbound h' => rw [h] at h'; cases h'
  | unbound h =>
    cases h' with
    | global h' => rw [h] at h'; cases h'
    | unbound => rfl

/-- Every symbol means exactly one thing in every environment. -/
theorem means_total (T : Table) (e : Nat) (x : Name) : ∃ M, MeansIn T e x M ∧
    Outcome x (identify T.envs (T.envs e).second (.sym x) (frames (T.envs e).first)) M := by
  rw [identify_sym]
  exact scan_means (H := T.envs) _ 0

theorem identify_means {T : Table} {e : Nat} {x : Name} {M : Meaning} (h : MeansIn T e x M) :
    Outcome x (identify T.envs (T.envs e).second (.sym x) (frames (T.envs e).first)) M := by
  obtain ⟨N, hn, ho⟩ := means_total T e x
  rw [Means.unique h hn]
  exact ho

/-! ## What is compared -/

/-- What `compare` sees of a meaning: nothing of a local variable, the keyword, or the name and the
value of a global variable. -/
def key (T : Table) : Meaning → Option (Nat ⊕ Cell)
  | .loc => none
  | .keyword t => some (.inl t)
  | .global g => some (.inr (T.cells g))
  | .unbound x => some (.inr ⟨.sym x, none⟩)

/-- What `compare` sees of an identity. -/
def keyOf (T : Table) : Identity → Option (Nat ⊕ Cell)
  | .relative .. => none
  | .variadic .. => none
  | .macro t => some (.inl t)
  | .absolute g => some (.inr (T.cells g))

theorem eqvIdentity_iff (T : Table) (i j : Identity) :
    eqvIdentity T i j = true ↔ keyOf T i = keyOf T j ∧ keyOf T i ≠ none := by
  cases i <;> cases j <;> simp [eqvIdentity, keyOf]
  intro h; rw [h]

/-- The table `T'` comes from `T` by binding names that were unbound; nothing that `compare` sees
has changed. -/
structure Later (T T' : Table) : Prop where
  next : T.next ≤ T'.next
  cells : ∀ g < T.next, T'.cells g = T.cells g
  means : ∀ e x M, MeansIn T e x M → ∃ M', MeansIn T' e x M' ∧ key T' M' = key T M
  proper : Proper T'

theorem means_congr {x : Name} {s s' : Name → Option Nat} {bv : List Form} {M : Meaning}
    (hs : s' x = s x) (h : Means x s bv M) : Means x s' bv M := by
  induction h with
  | loc h => exact .loc h
  | keyword h => exact .keyword h
  | outer hn _ ih => exact .outer hn ih
  | global h => exact .global (by rw [hs, h])
  | unbound h => exact .unbound (by rw [hs, h])

theorem means_unbound {x : Name} {s s' : Name → Option Nat} {bv : List Form} {g : Nat}
    (hs : s' x = some g) {M : Meaning} (h : Means x s bv M) (hM : M = .unbound x) :
    Means x s' bv (.global g) := by
  induction h with
  | loc h => cases hM
  | keyword h => cases hM
  | outer hn _ ih => exact .outer hn (ih hM)
  | global h => cases hM
  | unbound h => exact .global hs

theorem means_global {x : Name} {s : Name → Option Nat} {bv : List Form} {M : Meaning}
    (h : Means x s bv M) {g : Nat} (hM : M = .global g) : s x = some g := by
  induction h with
  | loc h => cases hM
  | keyword h => cases hM
  | outer hn _ ih => exact ih hM
  | global h => cases hM; exact h
  | unbound h => cases hM

theorem means_unbound_none {x y : Name} {s : Name → Option Nat} {bv : List Form} {M : Meaning}
    (h : Means x s bv M) (hM : M = .unbound y) : s x = none ∧ y = x := by
  induction h with
  | loc h => cases hM
  | keyword h => cases hM
  | outer hn _ ih => exact ih hM
  | global h => cases hM
  | unbound h => cases hM; exact ⟨h, rfl⟩

theorem Later.refl {T : Table} (hp : Proper T) : Later T T :=
  ⟨Nat.le_refl _, fun _ _ => rfl, fun _ _ M h => ⟨M, h, rfl⟩, hp⟩

theorem Later.trans {T T' T'' : Table} (h : Later T T') (h' : Later T' T'') : Later T T'' where
  next := Nat.le_trans h.next h'.next
  cells := fun g hg => by rw [h'.cells g (Nat.lt_of_lt_of_le hg h.next), h.cells g hg]
  means := fun e x M hM => by
    obtain ⟨M', h₁, h₂⟩ := h.means e x M hM
    obtain ⟨M'', h₃, h₄⟩ := h'.means e x M' h₁
    exact ⟨M'', h₃, h₄.trans h₂⟩
  proper := h'.proper

/-- Binding an unbound name. -/
theorem Later.bind {T : Table} (hp : Proper T) {e : Nat} {x : Name}
    (hx : MeansIn T e x (.unbound x)) : Later T (T.bind e (.sym x)) := by
  have hnone : (T.envs e).second x = none := (means_unbound_none hx rfl).1
  have hcells : ∀ g < T.next, (T.bind e (.sym x)).cells g = T.cells g := by
    intro g hg
    have : g ≠ T.next := by omega
    simp [Table.bind, this]
  have henv : ∀ f, f ≠ e → (T.bind e (.sym x)).envs f = T.envs f := by
    intro f hf; simp [Table.bind, hf]
  have hfirst : ((T.bind e (.sym x)).envs e).first = (T.envs e).first := by simp [Table.bind]
  have hother : ∀ y, y ≠ x → ((T.bind e (.sym x)).envs e).second y = (T.envs e).second y := by
    intro y hy; simp [Table.bind, hy]
  have hnew : ((T.bind e (.sym x)).envs e).second x = some T.next := by simp [Table.bind]
  refine ⟨Nat.le_succ _, hcells, ?_, ?_, ?_⟩
  · intro f y M hM
    have hkey : ∀ M, MeansIn T f y M → key (T.bind e (.sym x)) M = key T M := by
      intro M hM
      cases M with
      | global g =>
        simp only [key]
        rw [hcells g (hp.old f y g (means_global hM rfl))]
      | _ => rfl
    by_cases hf : f = e
    · subst hf
      by_cases hy : y = x
      · subst hy
        by_cases hu : M = .unbound y
        · subst hu
          refine ⟨.global T.next, ?_, ?_⟩
          · unfold MeansIn
            rw [hfirst]
            exact means_unbound hnew hM rfl
          · simp [key, Table.bind]
        · exact absurd (Means.unique hM hx) hu
      · refine ⟨M, ?_, hkey M hM⟩
        unfold MeansIn
        rw [hfirst]
        exact means_congr (hother y hy) hM
    · refine ⟨M, ?_, hkey M hM⟩
      unfold MeansIn
      rw [henv f hf]
      exact hM
  · intro f y g h
    by_cases hf : f = e
    · subst hf
      by_cases hy : y = x
      · subst hy; rw [hnew] at h; cases h; exact Nat.lt_succ_self _
      · rw [hother y hy] at h; exact Nat.lt_succ_of_lt (hp.old _ _ _ h)
    · rw [henv f hf] at h; exact Nat.lt_succ_of_lt (hp.old _ _ _ h)
  · intro f y g h
    by_cases hf : f = e
    · subst hf
      by_cases hy : y = x
      · subst hy; rw [hnew] at h; cases h; simp [Table.bind]
      · rw [hother y hy] at h; rw [hcells g (hp.old _ _ _ h)]; exact hp.name _ _ _ h
    · rw [henv f hf] at h; rw [hcells g (hp.old _ _ _ h)]; exact hp.name _ _ _ h

theorem identifyNew_key {T : Table} (hp : Proper T) {e : Nat} {x : Name} {M : Meaning}
    (h : MeansIn T e x M) :
    keyOf (identifyNew T e (.sym x)).2 (identifyNew T e (.sym x)).1 = key T M ∧
      Later T (identifyNew T e (.sym x)).2 ∧
      ∀ g, (identifyNew T e (.sym x)).1 = .absolute g → g < (identifyNew T e (.sym x)).2.next := by
  have ho := identify_means h
  unfold identifyNew
  generalize identify T.envs (T.envs e).second (.sym x) (frames (T.envs e).first) = r at ho ⊢
  cases ho with
  | relative => exact ⟨rfl, .refl hp, fun _ h => by cases h⟩
  | variadic => exact ⟨rfl, .refl hp, fun _ h => by cases h⟩
  | keyword => exact ⟨rfl, .refl hp, fun _ h => by cases h⟩
  | global g =>
    refine ⟨rfl, .refl hp, fun g' h' => ?_⟩
    cases h'
    exact hp.old _ _ _ (means_global h rfl)
  | unbound =>
    refine ⟨by simp [keyOf, key, Table.bind], .bind hp h, fun g' h' => ?_⟩
    cases h'
    exact Nat.lt_succ_self _

theorem keyOf_later {T T' : Table} (h : Later T T') {i : Identity}
    (hi : ∀ g, i = .absolute g → g < T.next) : keyOf T' i = keyOf T i := by
  cases i with
  | absolute g => simp only [keyOf]; rw [h.cells g (hi g rfl)]
  | _ => rfl

theorem sameBinding_key {T : Table} (hp : Proper T) {e f : Nat} {x y : Name} {M N : Meaning}
    (hM : MeansIn T e x M) (hN : MeansIn T f y N) :
    ((sameBinding (e, .sym x) (f, .sym y) T).1 = true ↔ key T M = key T N ∧ key T M ≠ none) ∧
      Later T (sameBinding (e, .sym x) (f, .sym y) T).2 := by
  obtain ⟨k₁, l₁, o₁⟩ := identifyNew_key hp hM
  obtain ⟨N', hN', kN⟩ := l₁.means f y N hN
  obtain ⟨k₂, l₂, -⟩ := identifyNew_key l₁.proper hN'
  simp only [sameBinding, Form.isIdentifier, Bool.and_self, if_true]
  refine ⟨?_, l₁.trans l₂⟩
  rw [eqvIdentity_iff, k₂, kN, keyOf_later l₂ o₁, k₁]

theorem stands_enclose {u : Nat} {a : Form} {e : Nat} {x : Name} (h : Stands u a e x) :
    enclose u a = (e, .sym x) := by
  cases h <;> rfl

theorem compare_key {T : Table} (hp : Proper T) {u : Nat} {a b : Form} {e f : Nat} {x y : Name}
    {M N : Meaning} (ha : Stands u a e x) (hb : Stands u b f y) (hM : MeansIn T e x M)
    (hN : MeansIn T f y N) :
    ((compare u a b T).1 = true ↔
      sameClosure a b = true ∨ (key T M = key T N ∧ key T M ≠ none)) ∧
      Later T (compare u a b T).2 := by
  obtain ⟨h₁, h₂⟩ := sameBinding_key hp hM hN
  unfold compare identifierEq
  rw [stands_enclose ha, stands_enclose hb]
  by_cases h : sameClosure a b
  · simp [h, Later.refl hp]
  · simp [h, h₁, h₂]

theorem sameClosure_eq {a b : Form} (h : sameClosure a b = true) : a = b := by
  cases a <;> simp_all [sameClosure]

/-! ## C100 -/

/-- **C100**: two identifiers that are not local variables are the same for `compare` exactly when
they have the same binding, or are the same name without a binding: the same local keyword, the same
global variable, the same unbound name.  An identifier is a symbol of the use of the macro, or a
symbol that a macro renamed.

Partial: no two global variables have the same name and the same value (`C100_collision_fails`), and
local variables are left out (`C100_local_fails`). -/
theorem C100_compare_partial {T : Table} (hp : Proper T) (hs : Separate T) {u : Nat} {a b : Form}
    {e f : Nat} {x y : Name} {M N : Meaning} (ha : Stands u a e x) (hb : Stands u b f y)
    (hM : MeansIn T e x M) (hN : MeansIn T f y N) (hl : M ≠ .loc) :
    (compare u a b T).1 = true ↔ Same M N := by
  rw [(compare_key hp ha hb hM hN).1]
  constructor
  · rintro (h | ⟨h, -⟩)
    · have := sameClosure_eq h
      subst this
      have h₁ := (stands_enclose ha).symm.trans (stands_enclose hb)
      cases h₁
      cases Means.unique hM hN
      cases M with
      | loc => exact absurd rfl hl
      | keyword t => exact .keyword t
      | global g => exact .global g
      | unbound z => exact .unbound z
    · cases M <;> cases N <;> simp only [key, Option.some.injEq, Sum.inl.injEq, Sum.inr.injEq,
        reduceCtorEq] at h
      · exact absurd rfl hl
      · subst h; exact .keyword _
      · rw [hs.distinct _ _ _ _ _ _ (means_global hM rfl) (means_global hN rfl) h]; exact .global _
      · exact absurd (by rw [h]) (hs.defined _ _ _ (means_global hM rfl))
      · exact absurd (by rw [← h]) (hs.defined _ _ _ (means_global hN rfl))
      · cases h; exact .unbound _
  · intro h
    refine .inr ?_
    cases h <;> simp [key]

/-- **C100**: a literal `x` of a macro, renamed where the macro is defined and no local variable
there, matches a symbol of the use exactly when it is the same name, no local variable or keyword
where the macro is used, and has the same value in both places or none in both. -/
theorem C100_literal {T : Table} (hp : Proper T) {u m : Nat} {i : Stamp} {free : List Name}
    {x y : Name} (hx : ∀ fs ∈ frames (T.envs m).first, Skips (.sym x) fs) :
    (compare u (.closure i m free (.sym x)) (.sym y) T).1 = true ↔
      y = x ∧ (∀ fs ∈ frames (T.envs u).first, Skips (.sym y) fs) ∧
        (((T.envs m).second x).bind fun g => (T.cells g).value) =
          (((T.envs u).second y).bind fun g => (T.cells g).value) := by
  have skips : ∀ (z : Name) (s : Name → Option Nat) (bv : List Form),
      (∀ fs ∈ bv, Skips (.sym z) fs) →
      Means z s bv (match s z with | some g => .global g | none => .unbound z) := by
    intro z s bv
    induction bv with
    | nil =>
      intro _
      rcases h : s z with _ | g
      · exact .unbound h
      · exact .global h
    | cons fs bv ih =>
      intro h
      exact .outer (h _ (.head _)) (ih fun fs' h' => h fs' (.tail _ h'))
  have hM := skips x (T.envs m).second (frames (T.envs m).first) hx
  have keyG : ∀ e z, key T (match (T.envs e).second z with
      | some g => .global g | none => .unbound z) =
      some (.inr ⟨.sym z, ((T.envs e).second z).bind fun g => (T.cells g).value⟩) := by
    intro e z
    rcases h : (T.envs e).second z with _ | g
    · rfl
    · simp only [key, Option.bind_some, ← hp.name e z g h]
  by_cases hy : ∀ fs ∈ frames (T.envs u).first, Skips (.sym y) fs
  · have hN := skips y (T.envs u).second (frames (T.envs u).first) hy
    rw [(compare_key hp (.renamed i m free x) (.symbol y) hM hN).1, keyG m x, keyG u y]
    simp only [sameClosure, reduceCtorEq, decide_false, Bool.false_eq_true, false_or,
      Option.some.injEq, Sum.inr.injEq, Cell.mk.injEq, Form.sym.injEq, ne_eq, not_false_eq_true,
      and_true]
    constructor
    · rintro ⟨h, h'⟩; exact ⟨h.symm, hy, h'⟩
    · rintro ⟨h, -, h'⟩; exact ⟨h.symm, h'⟩
  · obtain ⟨N, hN, -⟩ := means_total T u y
    rw [(compare_key hp (.renamed i m free x) (.symbol y) hM hN).1, keyG m x]
    have hloc : ∀ (bv : List Form) (s : Name → Option Nat) (N : Meaning), Means y s bv N →
        (∃ z, key T N = some (.inr z)) → ∀ fs ∈ bv, Skips (.sym y) fs := by
      intro bv s N h hk
      induction h with
      | loc => obtain ⟨z, hz⟩ := hk; cases hz
      | keyword => obtain ⟨z, hz⟩ := hk; cases hz
      | outer hn _ ih =>
        intro fs hfs
        cases hfs with
        | head => exact hn
        | tail _ h => exact ih hk fs h
      | global => intro fs hfs; cases hfs
      | unbound => intro fs hfs; cases hfs
    constructor
    · rintro (h | ⟨h, -⟩)
      · simp [sameClosure] at h
      · exact absurd (hloc _ _ N hN ⟨_, h.symm⟩) hy
    · rintro ⟨-, h, -⟩; exact absurd h hy

/-- **C100**: a local variable is not the same as any identifier, unless the two are one and the same
renamed symbol; so `else` bound by the program is not taken for the `else` of `cond`. -/
theorem C100_local {T : Table} (hp : Proper T) {u : Nat} {a b : Form} {e f : Nat} {x y : Name}
    (ha : Stands u a e x) (hb : Stands u b f y)
    (hl : MeansIn T e x .loc ∨ MeansIn T f y .loc) :
    (compare u a b T).1 = true ↔ sameClosure a b = true := by
  obtain ⟨M, hM, -⟩ := means_total T e x
  obtain ⟨N, hN, -⟩ := means_total T f y
  rw [(compare_key hp ha hb hM hN).1]
  constructor
  · rintro (h | ⟨h, h'⟩)
    · exact h
    · rcases hl with hl | hl
      · rw [Means.unique hM hl] at h'; exact absurd rfl h'
      · rw [h, Means.unique hN hl] at h'; exact absurd rfl h'
  · exact .inl

/-- **C100**: comparing identifiers does not change the outcome of any later comparison, although it
may bind names that had no binding. -/
theorem C100_stable {T : Table} (hp : Proper T) {u : Nat} {a b : Form} {e f : Nat} {x y : Name}
    (ha : Stands u a e x) (hb : Stands u b f y) {u' : Nat} {c d : Form} {e' f' : Nat} {x' y' : Name}
    (hc : Stands u' c e' x') (hd : Stands u' d f' y') :
    (compare u' c d (compare u a b T).2).1 = (compare u' c d T).1 := by
  obtain ⟨M, hM, -⟩ := means_total T e x
  obtain ⟨N, hN, -⟩ := means_total T f y
  have hl := (compare_key hp ha hb hM hN).2
  obtain ⟨M', hM', -⟩ := means_total T e' x'
  obtain ⟨N', hN', -⟩ := means_total T f' y'
  obtain ⟨M'', h₁, k₁⟩ := hl.means _ _ _ hM'
  obtain ⟨N'', h₂, k₂⟩ := hl.means _ _ _ hN'
  have := (compare_key hl.proper hc hd h₁ h₂).1
  rw [k₁, k₂] at this
  exact Bool.eq_iff_iff.2 (this.trans (compare_key hp hc hd hM' hN').1.symm)

/-- **C100**: anything that is no identifier is not the same as any other object. -/
theorem C100_other (u : Nat) (a b : Form) (T : Table)
    (h : (enclose u a).2.isIdentifier = false ∨ (enclose u b).2.isIdentifier = false) :
    (compare u a b T).1 = sameClosure a b := by
  unfold compare identifierEq sameBinding
  by_cases hc : sameClosure a b
  · simp [hc]
  · rcases h with h | h <;> simp [hc, h]

/-! ## Where it goes wrong -/

/-- The interaction environment 0, the environment 1 where `cond` is defined, and environment 2 of a
body with the local variable `else` (name 5).  Name 3 is `cons`; it is the cell 0 in 0 and 1. -/
def sampleTable : Table where
  envs := fun e =>
    ⟨if e = 2 then [(0, .cons (.sym 5) .nil)] else [], fun x => if x = 3 then some 0 else none⟩
  cells := fun _ => ⟨.sym 3, some 7⟩
  next := 1

theorem sampleTable_proper : Proper sampleTable := by
  constructor <;> intro e x g h <;> simp only [sampleTable] at h ⊢ <;> split at h <;> cases h
  · decide
  · simp_all

theorem sampleTable_separate : Separate sampleTable := by
  constructor
  · intro e x g f y h hg hh _
    simp only [sampleTable] at hg hh
    split at hg <;> cases hg
    split at hh <;> cases hh
    rfl
  · intro e x g _; simp [sampleTable]

/-- `else` at the outermost level is the `else` of `cond`; `cons` is not; the local `else` is not. -/
example :
    (compare 0 (.closure (.rename 0) 1 [] (.sym 5)) (.sym 5) sampleTable).1 = true ∧
    (compare 0 (.closure (.rename 0) 1 [] (.sym 5)) (.sym 3) sampleTable).1 = false ∧
    (compare 2 (.closure (.rename 0) 1 [] (.sym 5)) (.sym 5) sampleTable).1 = false ∧
    (compare 0 (.closure (.rename 0) 1 [] (.sym 3)) (.sym 3) sampleTable).1 = true := by decide

/-- **C100 fails** for local variables: a local variable is not the same as itself.  So a literal of
a macro that is bound by the program, with the same binding where the macro is defined and where it is
used, never matches (R7RS 4.3.2 says it does). -/
theorem C100_local_fails : ∃ (T : Table) (u : Nat) (x : Name), Proper T ∧ MeansIn T u x .loc ∧
    (compare u (.sym x) (.sym x) T).1 = false ∧
    ∀ i, (compare u (.closure i u [] (.sym x)) (.sym x) T).1 = false := by
  have hv : MeansIn sampleTable 2 5 .loc := .loc (.loc _)
  refine ⟨sampleTable, 2, 5, sampleTable_proper, hv, by decide, fun i => ?_⟩
  have := (C100_local (u := 2) sampleTable_proper (.renamed i 2 [] 5) (.symbol 5) (.inl hv)).1
  rcases h : (compare 2 (.closure i 2 [] (.sym 5)) (.sym 5) sampleTable).1
  · rfl
  · exact absurd (this h) (by simp [sameClosure])

/-- Environment 0 imports the variable `else` (name 5) of environment 1 under the name 6: importing
under another name makes a copy with the new name (C95). -/
def renamedTable : Table where
  envs := fun e => ⟨[], fun x =>
    if e = 1 then (if x = 5 then some 0 else none) else (if x = 6 then some 1 else none)⟩
  cells := fun g => if g = 0 then ⟨.sym 5, some 7⟩ else ⟨.sym 6, some 7⟩
  next := 2

/-- **C100 fails** for imported literals: a literal that is exported and imported with a prefix or
renamed is not recognised under its new name (R7RS 4.3.2 says it is). -/
theorem C100_renamed_fails : Proper renamedTable ∧
    (∀ g h, (renamedTable.envs 1).second 5 = some g → (renamedTable.envs 0).second 6 = some h →
      (renamedTable.cells g).value = (renamedTable.cells h).value) ∧
    (compare 0 (.closure (.rename 0) 1 [] (.sym 5)) (.sym 6) renamedTable).1 = false := by
  refine ⟨?_, fun g h hg hh => by cases hg; cases hh; rfl, by decide⟩
  constructor <;> intro e x g h <;> simp only [renamedTable] at h ⊢ <;> split at h <;>
    split at h <;> cases h <;> simp_all

/-- Environments 0 and 1 define their own variables with the name 5 and the same value. -/
def collisionTable : Table where
  envs := fun e => ⟨[], fun x =>
    if x = 5 then (if e = 1 then some 0 else some 1) else none⟩
  cells := fun _ => ⟨.sym 5, some 7⟩
  next := 2

/-- **C100 fails** for variables of different libraries: two different variables are the same if they
happen to have the same name and the same value. -/
theorem C100_collision_fails : Proper collisionTable ∧
    (collisionTable.envs 1).second 5 ≠ (collisionTable.envs 0).second 5 ∧
    (compare 0 (.closure (.rename 0) 1 [] (.sym 5)) (.sym 5) collisionTable).1 = true := by
  refine ⟨?_, by decide, by decide⟩
  constructor <;> intro e x g h <;> simp only [collisionTable] at h ⊢ <;> split at h <;>
    (try split at h) <;> cases h <;> simp_all

/-- **C100 fails** for symbols renamed twice, as by a macro that defines a macro: `else` without a
binding is then not the `else` of `cond`, whatever the environments of the two macros are.  (With
assertions enabled the interpreter is aborted.) -/
theorem C100_nested_fails {T : Table} {u m e f : Nat} {i j k : Stamp} {x : Name}
    (hm : MeansIn T m x (.unbound x)) (hf : f ≠ m)
    (he : identify T.envs (T.envs e).second (.closure k f [] (.sym x)) (frames (T.envs e).first) =
      none) :
    (compare u (.closure i m [] (.sym x)) (.closure j e [] (.closure k f [] (.sym x))) T).1 =
      false := by
  have ho := identify_means hm
  generalize hr : identify T.envs (T.envs m).second (.sym x) (frames (T.envs m).first) = r at ho
  cases ho
  have h₁ : identifyNew T m (.sym x) = (.absolute T.next, T.bind m (.sym x)) := by
    unfold identifyNew; rw [hr]
  have hfirst : ((T.bind m (.sym x)).envs e).first = (T.envs e).first := by
    simp only [Table.bind]; split
    · subst_vars; rfl
    · rfl
  have henv : (T.bind m (.sym x)).envs f = T.envs f := by simp [Table.bind, hf]
  have h₂ : identify (T.bind m (.sym x)).envs ((T.bind m (.sym x)).envs e).second
      (.closure k f [] (.sym x)) (frames ((T.bind m (.sym x)).envs e).first) = none := by
    rw [identify.eq_def] at he ⊢
    simp only [identify_sym, hfirst, henv, Form.isIdentifier, if_true] at he ⊢
    exact he
  have h₃ : identifyNew (T.bind m (.sym x)) e (.closure k f [] (.sym x)) =
      (.absolute (T.next + 1), (T.bind m (.sym x)).bind e (.closure k f [] (.sym x))) := by
    unfold identifyNew; rw [h₂]; rfl
  have hc : sameClosure (.closure i m [] (.sym x)) (.closure j e [] (.closure k f [] (.sym x))) =
      false := by simp [sameClosure]
  simp only [compare, identifierEq, hc, Bool.false_eq_true, if_false, enclose, sameBinding,
    Form.isIdentifier, Bool.and_self, if_true, h₁, h₃]
  simp [eqvIdentity, Table.bind]

/-- The hypotheses of `C100_nested_fails` hold for `else` and three environments. -/
example : MeansIn sampleTable 1 5 (.unbound 5) ∧
    identify sampleTable.envs (sampleTable.envs 0).second (.closure (.rename 0) 0 [] (.sym 5))
      (frames (sampleTable.envs 0).first) = none := by
  refine ⟨.unbound rfl, by decide⟩

/-- **C100 fails** for the meaning of the program: comparing binds a name, so that it can change what
an identifier refers to.  The renamed `else`, inserted where `else` is a local variable, refers to
that variable before it is compared and to a new global variable afterwards; and the same comparison
of a symbol renamed twice gives different results. -/
theorem C100_effect_fails : ∃ (T : Table) (a : Form), Proper T ∧
    identifyClosure T.envs 1 (.sym 5) [.cons (.sym 5) .nil] = some (.relative 0 0) ∧
    identifyClosure (compare 0 a (.sym 5) T).2.envs 1 (.sym 5) [.cons (.sym 5) .nil] =
      some (.absolute 1) ∧
    (compare 0 (.sym 5) (.closure (.rename 1) 0 [] (.closure (.rename 2) 1 [] (.sym 5))) T).1 =
      false ∧
    (compare 0 (.sym 5) (.closure (.rename 1) 0 [] (.closure (.rename 2) 1 [] (.sym 5)))
      (compare 0 a (.sym 5) T).2).1 = true :=
  ⟨sampleTable, .closure (.rename 0) 1 [] (.sym 5), sampleTable_proper, by decide, by decide,
    by decide, by decide⟩

end Meevax.Expand
