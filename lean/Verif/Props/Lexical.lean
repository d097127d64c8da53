import Verif.Props.SecdExamples
import Verif.Spec.Lexical

/-! C36: variables, C37: operands, C39: `letrec`. -/

namespace Meevax.Secd

open Scheme

/-! ### C36: lexical addressing -/

theorem Formals.scopesOf {bv : List Form} {sc : Scopes} (h : Formals bv sc) : ScopesOf bv sc := by
  induction h with
  | nil => exact .nil
  | cons hf _ ih => exact .cons hf ih

/-- What an address denotes. -/
inductive At (h : Cells) (e : Value) : Identity → Slot → Prop where
  | relative {i j : Nat} {f : Value} {l : Nat} (hf : h.head e i = some f)
      (ht : h.tail f j = some (.pair l)) : At h e (.relative i j) (.car l)
  | variadic₀ {i l : Nat} (ht : h.tail e i = some (.pair l)) : At h e (.variadic i 0) (.car l)
  | variadic {i j : Nat} {f : Value} {l : Nat} (hf : h.head e i = some f)
      (ht : h.tail f j = some (.pair l)) : At h e (.variadic i (j + 1)) (.cdr l)

theorem Cells.tail_append (h : Cells) : ∀ (i : Nat) {e x : Value} (j : Nat), h.tail e i = some x →
    h.tail e (i + j) = h.tail x j
  | 0, e, x, j, hx => by simp [Cells.tail] at hx; subst hx; simp
  | i + 1, e, x, j, hx => by
    rw [show i + 1 + j = (i + j) + 1 by omega]
    simp only [Cells.tail] at hx ⊢
    cases hc : h.cdr e with
    | none => simp [hc] at hx
    | some y =>
      simp only [hc, Option.bind_eq_bind, Option.bind_some] at hx ⊢
      exact Cells.tail_append h i j hx

theorem inFrame_at {h : Cells} {x : Name} {fs : List Name} {rest : Option Name} {s t : Slot}
    (ht : InFrame h x s fs rest t) : ∀ {e : Value} {i j l₀ : Nat}, h.tail e i = some (.pair l₀) →
    (j = 0 ∧ s = .car l₀ ∨ ∃ j' l, j = j' + 1 ∧ h.tail (h.cell l₀).1 j' = some (.pair l) ∧ s = .cdr l) →
    ∃ id, addrIn x i fs rest j = some id ∧ At h e id t := by
  induction ht with
  | here hs =>
    intro e i j l₀ he hj
    refine ⟨.relative i j, by simp [addrIn], .relative (f := (h.cell l₀).1) ?_ ?_⟩
    · simp [Cells.head, he, Cells.car]
    · rcases hj with ⟨rfl, rfl⟩ | ⟨j', l', rfl, hl, rfl⟩
      · simpa [Cells.tail, Cells.read] using hs
      · rw [Cells.tail_append h j' 1 hl]
        simpa [Cells.tail, Cells.cdr, Cells.read] using hs
  | there hs hy _ ih =>
    intro e i j l₀ he hj
    obtain ⟨id, h₁, h₂⟩ := ih (j := j + 1) he (.inr ⟨j, _, rfl, (by
      rcases hj with ⟨rfl, rfl⟩ | ⟨j', l', rfl, hl, rfl⟩
      · simpa [Cells.tail, Cells.read] using hs
      · rw [Cells.tail_append h j' 1 hl]
        simpa [Cells.tail, Cells.cdr, Cells.read] using hs), rfl⟩)
    exact ⟨id, by simp [addrIn, hy, h₁], h₂⟩
  | rest =>
    intro e i j l₀ he hj
    refine ⟨.variadic i j, by simp [addrIn], ?_⟩
    rcases hj with ⟨rfl, rfl⟩ | ⟨j', l', rfl, hl, rfl⟩
    · exact .variadic₀ he
    · exact .variadic (by simp [Cells.head, he, Cells.car]) hl

theorem inEnv_at {h : Cells} {x : Name} {v : Value} {sc : Scopes} {t : Slot}
    (ht : InEnv h x v sc t) : ∀ {e : Value} {i : Nat}, h.tail e i = some v →
    ∃ id, addrFrom x sc i = some id ∧ At h e id t := by
  induction ht with
  | here ht =>
    intro e i he
    obtain ⟨id, h₁, h₂⟩ := inFrame_at ht (j := 0) he (.inl ⟨rfl, rfl⟩)
    exact ⟨id, by simp [addrFrom, h₁], h₂⟩
  | outer hx _ ih =>
    rename_i l fs rest sc t _
    intro e i he
    obtain ⟨id, h₁, h₂⟩ := ih (i := i + 1) (e := e) (by
      rw [Cells.tail_append h i 1 he]; simp [Cells.tail, Cells.cdr])
    have : addrIn x i fs rest 0 = none := by
      rw [addrIn_none]; simp only [List.mem_append, Option.mem_toList, Option.mem_def]
      rintro (hf | hr)
      · exact hx.1 hf
      · exact hx.2 hr
    exact ⟨id, by simp [addrFrom, this, h₁], h₂⟩

/-- **C36**, reading. Wherever the innermost binding of a variable is, a reference to it pushes what
is there. -/
theorem C36_reference {G : Globals} {bv : List Form} {sc : Scopes} (hb : Formals bv sc) {x : Name}
    {s : List Value} {e : Value} {k : Code} {d : Dump} {h : Heap} {t : Slot} {tail : Bool}
    (ht : InEnv h.cells x e sc t) (Q : Prims) :
    ∃ i, generate G (.sym x) bv k tail = some (i :: k) ∧
      step Q ⟨s, e, i :: k, d, h⟩ = .next ⟨h.cells.read t :: s, e, k, d, h⟩ := by
  refine ⟨_, by rw [generate], ?_⟩
  obtain ⟨id, h₁, h₂⟩ := inEnv_at ht (i := 0) (e := e) rfl
  rw [identify_eq hb.scopesOf, addr, h₁, Option.getD_some]
  cases h₂ with
  | relative hf hl =>
    rename_i i j f l
    have hv : h.cells.head f j = some (h.cells.cell l).1 := by
      simp [Cells.head, hl, Cells.car]
    simp only [loadInstr, step, hf, Option.bind_eq_bind, Option.bind_some, hv]
    rfl
  | variadic₀ hl =>
    simp only [loadInstr, step, Cells.head, hl, Option.bind_eq_bind, Option.bind_some, Cells.car]
    rfl
  | variadic hf hl =>
    rename_i i j f l
    have hv : h.cells.tail f (j + 1) = some (h.cells.cell l).2 := by
      rw [Cells.tail_append _ _ 1 hl]; simp [Cells.tail, Cells.cdr]
    simp only [loadInstr, step, hf, Option.bind_eq_bind, Option.bind_some, hv]
    rfl

/-- **C36**, assigning. `set!` changes the place of the innermost binding, and nothing else. -/
theorem C36_assignment {G : Globals} {bv : List Form} {sc : Scopes} (hb : Formals bv sc) {q x : Name}
    (hq : IsKeyword G sc q .set) {form : Form} {v : Value} {s : List Value} {e : Value} {k : Code}
    {d : Dump} {h : Heap} {t : Slot} {tail : Bool} (ht : InEnv h.cells x e sc t) (Q : Prims) :
    ∃ i, generate G (.cons (.sym q) (.cons (.sym x) (.cons form .nil))) bv k tail =
        generate G form bv (i :: k) false ∧
      ∃ c, step Q ⟨v :: s, e, i :: k, d, h⟩ = .next ⟨v :: s, e, k, d, { h with cells := c }⟩ ∧
        c.next = h.cells.next ∧ c.read t = v ∧ ∀ t', t' ≠ t → c.read t' = h.cells.read t' := by
  refine ⟨storeInstr (identify G x bv), ?_, ?_⟩
  · rw [generate.eq_def]; dsimp only; rw [keyword_of hb.scopesOf hq]
  obtain ⟨id, h₁, h₂⟩ := inEnv_at ht (i := 0) (e := e) rfl
  rw [identify_eq hb.scopesOf, addr, h₁, Option.getD_some]
  have setCar : ∀ l, (h.cells.setCar l v).read (.car l) = v ∧
      ∀ t', t' ≠ .car l → (h.cells.setCar l v).read t' = h.cells.read t' := by
    intro l
    refine ⟨by simp [Cells.read, Cells.setCar], fun t' ht' => ?_⟩
    cases t' with
    | car m =>
      have : m ≠ l := fun h => ht' (h ▸ rfl)
      simp [Cells.read, Cells.setCar, this]
    | cdr m =>
      by_cases hm : m = l
      · subst hm; simp [Cells.read, Cells.setCar]
      · simp [Cells.read, Cells.setCar, hm]
  cases h₂ with
  | relative hf hl =>
    refine ⟨h.cells.setCar _ v, ?_, rfl, setCar _⟩
    simp only [storeInstr, step, hf, Option.bind_eq_bind, Option.bind_some, Cells.setHead, hl]
    rfl
  | variadic₀ hl =>
    refine ⟨h.cells.setCar _ v, ?_, rfl, setCar _⟩
    simp only [storeInstr, step, Cells.setTail, Cells.setHead, hl, Option.bind_eq_bind,
      Option.bind_some]
    rfl
  | variadic hf hl =>
    rename_i i j f l
    refine ⟨h.cells.setCdr l v, ?_, rfl, by simp [Cells.read, Cells.setCdr], fun t' ht' => ?_⟩
    · simp only [storeInstr, step, Cells.setTail, hf, hl, Option.bind_eq_bind, Option.bind_some]
      rfl
    · cases t' with
      | cdr m =>
        have : m ≠ l := fun h => ht' (h ▸ rfl)
        simp [Cells.read, Cells.setCdr, this]
      | car m =>
        by_cases hm : m = l
        · subst hm; simp [Cells.read, Cells.setCdr]
        · simp [Cells.read, Cells.setCdr, hm]

/-- **C36**, global variables. A variable that is bound by no enclosing procedure is the global
one. -/
theorem C36_global {G : Globals} {bv : List Form} {sc : Scopes} (hb : Formals bv sc) {x : Name}
    (hx : x ∉ names sc) {s : List Value} {e : Value} {k : Code} {d : Dump} {h : Heap} {tail : Bool}
    (Q : Prims) :
    ∃ i, generate G (.sym x) bv k tail = some (i :: k) ∧
      step Q ⟨s, e, i :: k, d, h⟩ = .next ⟨h.globals (G.free x) :: s, e, k, d, h⟩ := by
  refine ⟨_, by rw [generate], ?_⟩
  rw [identify_eq hb.scopesOf, addr, addrFrom_none.2 hx]
  rfl

theorem longFrame_inFrame {h : Cells} {x : Name} : ∀ {fs : List Name} {rest : Option Name} {s : Slot},
    LongFrame h fs.length (h.read s) → x ∈ fs ∨ rest = some x → ∃ t, InFrame h x s fs rest t
  | [], _, s, _, hx => by
    rcases hx with hx | rfl
    · cases hx
    · exact ⟨s, .rest⟩
  | y :: fs, rest, s, hl, hx => by
    rw [List.length_cons] at hl
    generalize hv : h.read s = v at hl
    cases hl with
    | succ hl =>
      by_cases hy : y = x
      · subst hy; exact ⟨_, .here hv⟩
      · obtain ⟨t, ht⟩ := longFrame_inFrame (fs := fs) (rest := rest) (s := .cdr _) hl (by
          rcases hx with hx | hx
          · rcases List.mem_cons.1 hx with rfl | hx
            · exact absurd rfl hy
            · exact .inl hx
          · exact .inr hx)
        exact ⟨t, .there hv hy ht⟩

/-- **C36**: in an environment with a long enough frame for every scope, every variable of the scopes
has a place. -/
theorem C36_place {h : Cells} {x : Name} {e : Value} {sc : Scopes} (he : EnvFor h e sc)
    (hx : x ∈ names sc) : ∃ t, InEnv h x e sc t := by
  induction he with
  | nil => simp [names] at hx
  | cons hf _ ih =>
    rename_i l fs rest sc _
    by_cases hh : x ∈ fs ∨ rest = some x
    · obtain ⟨t, ht⟩ := longFrame_inFrame (s := .car l) hf hh
      exact ⟨t, .here ht⟩
    · simp only [names, List.mem_append, Option.mem_toList, Option.mem_def] at hx
      have hx' : x ∈ names sc := by
        rcases hx with hx | hx
        · exact absurd hx hh
        · exact hx
      obtain ⟨t, ht⟩ := ih hx'
      exact ⟨t, .outer ⟨fun h => hh (.inl h), fun h => hh (.inr h)⟩ ht⟩

/-- Two frames, `(x y . z)` with four arguments and `(w . x)` with two: the place of the outer `y`
and of the inner `x`. -/
example : ∃ (h : Cells) (e : Value), EnvFor h e [([3], some 0), ([0, 1], some 2)] ∧
    InEnv h 1 e [([3], some 0), ([0, 1], some 2)] (.car 1) ∧
    InEnv h 0 e [([3], some 0), ([0, 1], some 2)] (.cdr 5) := by
  refine ⟨⟨fun l => match l with
    | 0 => (.nil, .pair 1) | 1 => (.nil, .pair 2) | 2 => (.nil, .nil)
    | 3 => (.pair 0, .nil) | 4 => (.nil, .nil) | 5 => (.nil, .pair 4)
    | 6 => (.pair 5, .pair 3) | _ => (.nil, .nil), 7⟩, .pair 6, ?_, ?_, ?_⟩
  · exact .cons (.succ (.zero _)) (.cons (.succ (.succ (.zero _))) (.nil _))
  · exact .outer (by simp) (.here (.there rfl (by decide) (.here rfl)))
  · exact .here (.there rfl (by decide) .rest)

/-! ### C37: operands -/

theorem IsList.keep {h h' : Cells} {v : Value} {vs : List Value} {ls : List Nat}
    (hl : IsList h v vs ls) : (∀ l ∈ ls, h'.cell l = h.cell l) → IsList h' v vs ls := by
  induction hl with
  | nil => exact fun _ => .nil
  | cons _ ih =>
    rename_i l xs ls _
    intro hk
    have h₁ := hk l (by simp)
    have h₂ := ih fun m hm => hk m (by simp [hm])
    rw [← h₁] at h₂ ⊢
    exact .cons h₂

theorem Operands.list {Q : Prims} {e : Value} {h h' : Heap} {cs : List Code} {vs : List Value}
    {xs : Value} (ho : Operands Q e h cs vs xs h') : h.cells.next ≤ h'.cells.next ∧
      ∃ ls, IsList h'.cells xs vs ls ∧ ls.Nodup ∧ ∀ l ∈ ls, h.cells.next ≤ l ∧ l < h'.cells.next := by
  induction ho with
  | nil => exact ⟨Nat.le_refl _, [], .nil, by simp, by simp⟩
  | cons hs hc hn hk ih =>
    rename_i c cs v xs vs h₁ h₂
    obtain ⟨h₃, ls, h₄, h₅, h₆⟩ := ih
    have hkeep : IsList h₂.cells xs vs ls :=
      h₄.keep fun l hl => hk l (h₆ l hl).1 (h₆ l hl).2 _ _ h₄ hl
    have hne : ∀ l ∈ ls, l ≠ h₂.cells.next := fun l hl h => by have := (h₆ l hl).2; omega
    have hkeep' : IsList (h₂.cells.cons v xs) xs vs ls :=
      hkeep.keep fun l hl => by simp [Cells.cons, hne l hl]
    refine ⟨by simp only [Cells.cons]; omega, h₂.cells.next :: ls, ?_, ?_, ?_⟩
    · have hcell : (h₂.cells.cons v xs).cell h₂.cells.next = (v, xs) := by simp [Cells.cons]
      have : IsList (h₂.cells.cons v xs) ((h₂.cells.cons v xs).cell h₂.cells.next).2 vs ls := by
        rw [hcell]; exact hkeep'
      have := IsList.cons this
      rw [hcell] at this
      exact this
    · exact List.nodup_cons.2 ⟨fun hm => hne _ hm rfl, h₅⟩
    · intro l hl
      simp only [Cells.cons]
      rcases List.mem_cons.1 hl with rfl | hl
      · omega
      · have := h₆ l hl; omega

/-- Code for the operands. -/
def operandsCode (cs : List Code) : Code :=
  .loadConstant .nil :: cs.reverse.flatMap fun c => c ++ [.cons]

theorem operandsCode_cons (c : Code) (cs : List Code) :
    operandsCode (c :: cs) = operandsCode cs ++ (c ++ [.cons]) := by
  simp [operandsCode]

theorem compArgs_code {G : Globals} {sc : Scopes} : ∀ (es : List Expr) (k : Code),
    (∀ a ∈ es, Placed false a) →
    .loadConstant .nil :: compArgs G.free sc es k =
      operandsCode (es.map fun e => comp G.free sc e [] false) ++ k
  | [], k, _ => by simp [compArgs, operandsCode]
  | a :: as, k, h => by
    rw [compArgs, compArgs_code as _ fun b hb => h b (by simp [hb]), List.map_cons,
      operandsCode_cons]
    have := comp_append G.free sc a [] (.cons :: k) (h a (by simp))
    simp only [List.nil_append] at this
    rw [this]
    simp

/-- **C37**, the code.  The code of a call is the code of each operand, exactly once, from the last
to the first, and then the code of the operator. -/
theorem C37_code {G : Globals} {bv : List Form} {sc : Scopes} (hb : Formals bv sc) {f : Form}
    {as : List Form} {ef : Expr} {es : List Expr} (hk : NotKeyword G sc f)
    (hf : Parse G sc f (.expr ef)) (ha : List.Forall₂ (fun a e => Parse G sc a (.expr e)) as es)
    (hpf : Placed false ef) (hpa : ∀ e ∈ es, Placed false e) :
    ∃ cf cs, generate G f bv [] false = some cf ∧
      List.Forall₂ (fun a c => generate G a bv [] false = some c) as cs ∧
      ∀ k, generate G (.cons f (Form.list as)) bv k false =
          some (.loadConstant .nil :: (cs.reverse.flatMap fun c => c ++ [.cons]) ++
            (cf ++ .call :: k)) ∧
        generate G (.cons f (Form.list as)) bv [.ret] true =
          some (.loadConstant .nil :: (cs.reverse.flatMap fun c => c ++ [.cons]) ++
            (cf ++ [.tailCall])) := by
  have hs := hb.scopesOf
  have hargs : Parse G sc (Form.list as) (.args es) := by
    clear hpa
    induction ha with
    | nil => exact .noArgs
    | cons h _ ih => exact .arg h ih
  have happ : Parse G sc (.cons f (Form.list as)) (.expr (.app ef es)) := .app hk hf hargs
  have hc : ∀ k, comp G.free sc ef k false = comp G.free sc ef [] false ++ k := fun k => by
    have := comp_append G.free sc ef [] k hpf
    simpa using this
  refine ⟨comp G.free sc ef [] false, es.map fun e => comp G.free sc e [] false,
    parse_generate hf hs _ _ (by simp) hpf, ?_, fun k => ⟨?_, ?_⟩⟩
  · clear hargs happ
    induction ha with
    | nil => exact .nil
    | cons h _ ih =>
      exact .cons (parse_generate h hs _ _ (by simp) (hpa _ (by simp)))
        (ih fun e he => hpa e (by simp [he]))
  · rw [parse_generate happ hs _ _ (by simp) (.app _ hpf hpa), comp, compArgs_code _ _ hpa, hc]
    rfl
  · rw [parse_generate happ hs _ _ (by simp) (.app _ hpf hpa), comp, compArgs_code _ _ hpa, hc]
    rfl

theorem run_operands {Q : Prims} {e : Value} {h h' : Heap} {cs : List Code} {vs : List Value}
    {xs : Value} (ho : Operands Q e h cs vs xs h') (s : List Value) (d : Dump) : ∀ k,
    ∃ n, Steps Q n ⟨s, e, operandsCode cs ++ k, d, h⟩ ⟨xs :: s, e, k, d, h'⟩ := by
  induction ho with
  | nil => exact fun k => ⟨1, _, rfl, rfl⟩
  | cons hs hc hn hk ih =>
    intro k
    rename_i c cs v xs vs h₁ h₂
    rw [operandsCode_cons]
    obtain ⟨n, hn⟩ := ih (c ++ .cons :: k)
    obtain ⟨m, hm⟩ := hc (xs :: s) (.cons :: k) d
    refine ⟨n + (m + 1), ?_⟩
    simp only [List.append_assoc, List.cons_append, List.nil_append]
    exact hn.add ((run_steps hm).add ⟨_, rfl, rfl⟩)

/-- **C37**, the run.  When the operands yield values from the last to the first, each in the store
that the ones before left, and the operator then yields `f`, the machine arrives at the call with `f`
and a list on the stack.  Its elements are the values in the order of the text, and its cells are all
different, and were not allocated before the call.
Missing: the continuation of an operand may be used again, and then cells are shared
(`C38_reentry_fails`). -/
theorem C37_operands_partial {G : Globals} {bv : List Form} {sc : Scopes} (hb : Formals bv sc)
    {f : Form} {as : List Form} {ef : Expr} {es : List Expr} (hk : NotKeyword G sc f)
    (hf : Parse G sc f (.expr ef)) (ha : List.Forall₂ (fun a e => Parse G sc a (.expr e)) as es)
    (hpf : Placed false ef) (hpa : ∀ e ∈ es, Placed false e) {cf : Code} {cs : List Code}
    (hcf : generate G f bv [] false = some cf)
    (hcs : List.Forall₂ (fun a c => generate G a bv [] false = some c) as cs)
    {Q : Prims} {e : Value} {h h₁ h₂ : Heap} {vs : List Value} {xs fv : Value}
    (ho : Operands Q e h cs vs xs h₁) (hfv : Yields Q e h₁ cf fv h₂) (hkeep : ∀ vs ls, IsList h₁.cells xs vs ls →
      ∀ l ∈ ls, h₂.cells.cell l = h₁.cells.cell l) :
    (∃ ls, IsList h₂.cells xs vs ls ∧ ls.Nodup ∧ ∀ l ∈ ls, h.cells.next ≤ l) ∧
    ∀ (s : List Value) (k : Code) (d : Dump), ∃ c n,
      generate G (.cons f (Form.list as)) bv k false = some c ∧
      run Q n ⟨s, e, c, d, h⟩ = .running ⟨fv :: xs :: s, e, .call :: k, d, h₂⟩ := by
  obtain ⟨-, ls, h₄, h₅, h₆⟩ := ho.list
  refine ⟨⟨ls, h₄.keep (hkeep _ _ h₄), h₅, fun l hl => (h₆ l hl).1⟩, fun s k d => ?_⟩
  obtain ⟨cf', cs', h₇, h₈, h₉⟩ := C37_code (bv := bv) hb hk hf ha hpf hpa
  rw [hcf] at h₇; cases h₇
  cases forall₂_unique (fun _ _ _ h h' => Option.some.inj (h.symm.trans h')) hcs h₈
  obtain ⟨n, hn⟩ := run_operands ho s d (cf ++ .call :: k)
  obtain ⟨m, hm⟩ := hfv (xs :: s) (.call :: k) d
  exact ⟨_, n + m, (h₉ k).1, steps_run (hn.add (run_steps hm))⟩

/-- A call of a procedure makes an environment of the argument list and the environment of the
procedure; the caller's registers are kept. -/
theorem C37_call {Q : Prims} {s : List Value} {e e' xs : Value} {c' k : Code} {d : Dump} {h : Heap} :
    ∃ l h', step Q ⟨.closure c' e' :: xs :: s, e, .call :: k, d, h⟩ =
        .next ⟨[], .pair l, c', .frame s e k d, h'⟩ ∧ h'.cells.cell l = (xs, e') ∧
      ∀ l', l' ≠ l → h'.cells.cell l' = h.cells.cell l' :=
  ⟨_, _, rfl, by simp [Cells.cons], fun l' h => by simp [Cells.cons, h]⟩

/-- `(f 'a 'b)`: the hypotheses of `C37_operands_partial` are met. -/
example (h : Heap) : Operands core .nil h [[.loadConstant (.sym 1)], [.loadConstant (.sym 2)]]
    [.datum (.sym 1), .datum (.sym 2)] (.pair (h.cells.next + 1))
    { h with cells := (h.cells.cons (.datum (.sym 2)) .nil).cons (.datum (.sym 1)) (.pair h.cells.next) } :=
  .cons (.cons .nil (fun _ _ _ => ⟨1, rfl⟩) (Nat.le_refl _) (fun _ _ _ _ _ _ _ => rfl))
    (fun _ _ _ => ⟨1, rfl⟩) (Nat.le_refl _) (fun _ _ _ _ _ _ _ => rfl)

/-! ### C38: continuations -/

/-- **C38.** Whenever and as often as a captured continuation is called, with any stack, environment
and control, the machine goes on with the stack, environment, control and dump of the capture and
the value on top, in the present store.
Missing: the stack may refer to argument lists that have become frames since
(`C38_reentry_fails`); the capture must be in tail position (`C38_nontail_fails`,
`C38_operand_call_fails`). -/
theorem C38_restores_partial {Q : Prims} {s : List Value} {e : Value} {k c : Code} {d : Dump}
    {h : Heap} : ∃ l K h₁, step Q ⟨s, e, .loadContinuation k :: c, d, h⟩ =
        .next ⟨.pair l :: s, e, c, d, h₁⟩ ∧ IsList h₁.cells (.pair l) [K] [l] ∧
      ∀ s' e' c' d' h₂ v ls xs, IsList h₂.cells xs [v] ls →
        step Q ⟨K :: xs :: s', e', .call :: c', d', h₂⟩ = .next ⟨v :: s, e, k, d, h₂⟩ ∧
        step Q ⟨K :: xs :: s', e', .tailCall :: c', d', h₂⟩ = .next ⟨v :: s, e, k, d, h₂⟩ := by
  refine ⟨h.cells.next, .cont s e k d, _, rfl, ?_, ?_⟩
  · have : ∀ (H : Cells) (K : Value), H.cell h.cells.next = (K, .nil) →
        IsList H (.pair h.cells.next) [K] [h.cells.next] := by
      intro H K hH
      have h₁ : IsList H (H.cell h.cells.next).2 [] [] := by rw [hH]; exact .nil
      have h₂ := IsList.cons h₁
      rw [hH] at h₂; exact h₂
    exact this _ _ (by simp [Cells.cons])
  · intro s' e' c' d' h₂ v ls xs hl
    cases hl
    exact ⟨rfl, rfl⟩

/-- **C38**, in tail position of a procedure: calling the continuation with `v` leads where a return
of `v` to the caller leads. -/
theorem C38_returns_to_caller_partial {Q : Prims} {e : Value} {c : Code} {d : Dump} {h : Heap}
    {s₀ : List Value} {e₀ : Value} {c₀ : Code} :
    ∃ l K h₁, step Q ⟨[], e, .loadContinuation [.ret] :: c, .frame s₀ e₀ c₀ d, h⟩ =
        .next ⟨[.pair l], e, c, .frame s₀ e₀ c₀ d, h₁⟩ ∧ IsList h₁.cells (.pair l) [K] [l] ∧
      ∀ s' e' e'' c' d' h₂ v ls xs, IsList h₂.cells xs [v] ls →
        run Q 2 ⟨K :: xs :: s', e', .call :: c', d', h₂⟩ =
          run Q 1 ⟨[v], e'', [.ret], .frame s₀ e₀ c₀ d, h₂⟩ := by
  obtain ⟨l, K, h₁, h₂, h₃, h₄⟩ := C38_restores_partial (Q := Q) (s := []) (e := e) (k := [.ret])
    (c := c) (d := .frame s₀ e₀ c₀ d) (h := h)
  refine ⟨l, K, h₁, h₂, h₃, fun s' e' e'' c' d' h₅ v ls xs hl => ?_⟩
  simp only [run, (h₄ s' e' c' d' h₅ v ls xs hl).1]
  rfl

/-! ### C39: letrec -/

/-- A binding of `letrec` whose initial value is a lambda expression: the variable, the keyword
`lambda`, formals and body. -/
structure Procedure where
  x : Name
  lambda : Name
  formals : Form
  body : Form

def Procedure.form (p : Procedure) : Form :=
  Form.list [.sym p.x, .cons (.sym p.lambda) (.cons p.formals p.body)]

theorem mapCar_procedures : ∀ ps : List Procedure,
    mapCar (Form.list (ps.map (·.form))) = some (Form.list (ps.map fun p => .sym p.x))
  | [] => rfl
  | p :: ps => by
    have := mapCar_procedures ps
    simp only [List.map_cons, Form.list, Procedure.form, mapCar] at this ⊢
    rw [this]; rfl

theorem mapCadr_procedures : ∀ ps : List Procedure,
    mapCadr (Form.list (ps.map (·.form))) =
      some (Form.list (ps.map fun p => .cons (.sym p.lambda) (.cons p.formals p.body)))
  | [] => rfl
  | p :: ps => by
    have := mapCadr_procedures ps
    simp only [List.map_cons, Form.list, Procedure.form, mapCadr] at this ⊢
    rw [this]; rfl

theorem genOperand_procedures {G : Globals} {bv : List Form} {ps : List Procedure} {cs : List Code}
    (hc : List.Forall₂ (fun p c => keyword G (.sym p.lambda) bv = some .lambda ∧
      genBody G p.body (p.formals :: bv) [.ret] = some c) ps cs) : ∀ k : Code,
    genOperand G (Form.list (ps.map fun p => .cons (.sym p.lambda) (.cons p.formals p.body))) bv k =
      some (operandsCode (cs.map fun c => [.loadClosure c]) ++ k) := by
  induction hc with
  | nil =>
    intro k
    rw [List.map_nil, Form.list, genOperand.eq_def]; dsimp only
    rw [generate.eq_def]; rfl
  | cons h _ ih =>
    intro k
    rw [List.map_cons, Form.list, genOperand.eq_def]; dsimp only
    rw [generate.eq_def]; dsimp only
    rw [h.1]; dsimp only
    rw [h.2]
    simp only [Option.bind_eq_bind, Option.bind_some]
    rw [ih, List.map_cons, operandsCode_cons]
    simp

theorem run_closures {Q : Prims} {e : Value} (h : Heap) (s : List Value) (d : Dump) :
    ∀ (cs : List Code) (k : Code), ∃ n xs h' ls,
      Steps Q n ⟨s, e, operandsCode (cs.map fun c => [.loadClosure c]) ++ k, d, h⟩
        ⟨xs :: s, e, k, d, h'⟩ ∧ IsList h'.cells xs (cs.map fun c => .closure c e) ls ∧
      (∀ l ∈ ls, h.cells.next ≤ l ∧ l < h'.cells.next) ∧ h.cells.next ≤ h'.cells.next ∧
      (∀ l, l < h.cells.next → h'.cells.cell l = h.cells.cell l) ∧
      h'.globals = h.globals ∧ h'.regs = h.regs
  | [], k => ⟨1, .nil, h, [], ⟨_, rfl, rfl⟩, .nil, by simp, by simp, by simp, rfl, rfl⟩
  | c :: cs, k => by
    obtain ⟨n, xs, h', ls, h₁, h₂, h₃, h₄, h₅, h₆, h₇⟩ :=
      run_closures (Q := Q) (e := e) h s d cs (.loadClosure c :: .cons :: k)
    refine ⟨n + 2, .pair h'.cells.next, { h' with cells := h'.cells.cons (.closure c e) xs },
      h'.cells.next :: ls, ?_, ?_, ?_, ?_, ?_, h₆, h₇⟩
    · rw [List.map_cons, operandsCode_cons]
      simp only [List.append_assoc, List.cons_append, List.nil_append]
      exact h₁.add ⟨_, rfl, _, rfl, rfl⟩
    · have hcell : (h'.cells.cons (.closure c e) xs).cell h'.cells.next = (.closure c e, xs) := by
        simp [Cells.cons]
      have hk : IsList (h'.cells.cons (.closure c e) xs)
          ((h'.cells.cons (.closure c e) xs).cell h'.cells.next).2
          (cs.map fun c => .closure c e) ls := by
        rw [hcell]
        exact h₂.keep fun l hl => by
          have := (h₃ l hl).2
          simp [Cells.cons, Nat.ne_of_lt this]
      have := IsList.cons hk
      rw [hcell] at this
      exact this
    · intro l hl
      simp only [Cells.cons]
      rcases List.mem_cons.1 hl with rfl | hl
      · omega
      · have := h₃ l hl; omega
    · simp only [Cells.cons]; omega
    · intro l hl
      have : l ≠ h'.cells.next := by omega
      simp [Cells.cons, this, h₅ l hl]

/-- **C39.** A `letrec` of any number of procedures arrives at the code of its body with a new
environment, whose frame is the list of the procedures in the order of the text, and each procedure
has this environment: it sees itself, the others, and what is visible outside.  In tail position the
dump stays as it is; elsewhere the caller's registers are kept. Existing cells do not change. -/
theorem C39_letrec {G : Globals} {bv : List Form} {q : Name}
    (hq : keyword G (.sym q) bv = some .letrec) {ps : List Procedure} {cs : List Code} {body : Form}
    {cb : Code}
    (hc : List.Forall₂ (fun p c =>
      keyword G (.sym p.lambda) (Form.list (ps.map fun p => .sym p.x) :: bv) = some .lambda ∧
      genBody G p.body (p.formals :: Form.list (ps.map fun p => .sym p.x) :: bv) [.ret] = some c)
      ps cs)
    (hb : genBody G body (Form.list (ps.map fun p => .sym p.x) :: bv) [.ret] = some cb)
    (k : Code) (tail : Bool) :
    ∃ c, generate G (.cons (.sym q) (.cons (Form.list (ps.map (·.form))) body)) bv k tail = some c ∧
      ∀ (Q : Prims) (s : List Value) (e : Value) (d : Dump) (h : Heap), ∃ n l h' ls,
        run Q n ⟨s, e, c, d, h⟩ =
          .running ⟨[], .pair l, cb, if tail then d else .frame s e k d, h'⟩ ∧
        h.cells.next ≤ l ∧ (h'.cells.cell l).2 = e ∧
        IsList h'.cells (h'.cells.cell l).1 (cs.map fun c => .closure c (.pair l)) ls ∧
        (∀ l, l < h.cells.next → h'.cells.cell l = h.cells.cell l) ∧
        h'.globals = h.globals ∧ h'.regs = h.regs := by
  refine ⟨.dummy :: (operandsCode (cs.map fun c => [.loadClosure c]) ++
    (.loadClosure cb :: if tail then [.tailLetrec] else .letrec :: k)), ?_, fun Q s e d h => ?_⟩
  · rw [generate.eq_def]; dsimp only; rw [hq]; dsimp only
    have h₁ := mapCar_procedures ps
    have h₂ := mapCadr_procedures ps
    split
    · rename_i formals inits hm₁ hm₂
      rw [h₁] at hm₁; cases hm₁
      rw [h₂] at hm₂; cases hm₂
      rw [hb, Option.bind_eq_bind, Option.bind_some, genOperand_procedures hc]
      rfl
    · rename_i hn
      exact absurd h₂ (by simpa using hn _ _ h₁)
  · obtain ⟨n, xs, h', ls, h₁, h₂, h₃, h₄, h₅, h₆, h₇⟩ := run_closures (Q := Q)
      (e := .pair h.cells.next) { h with cells := h.cells.cons .nil e } s d cs
      (.loadClosure cb :: if tail then [.tailLetrec] else .letrec :: k)
    have hcell : h'.cells.cell h.cells.next = (.nil, e) := by
      rw [h₅ _ (by simp [Cells.cons])]; simp [Cells.cons]
    refine ⟨1 + (n + 2), h.cells.next, { h' with cells := h'.cells.setCar h.cells.next xs }, ls, ?_,
      Nat.le_refl _, by simp [Cells.setCar, hcell], ?_, ?_, h₆, h₇⟩
    · refine steps_run (Steps.add ⟨_, rfl, rfl⟩ (h₁.add ?_))
      cases tail with
      | true => exact ⟨_, rfl, _, rfl, rfl⟩
      | false =>
        refine ⟨_, rfl, _, rfl, ?_⟩
        have : ((h'.cells.setCar h.cells.next xs).cell h.cells.next).2 = e := by
          simp [Cells.setCar, hcell]
        show State.mk _ _ _ (.frame s ((h'.cells.setCar h.cells.next xs).cell h.cells.next).2 k d) _ = _
        rw [this]; rfl
    · have : ((h'.cells.setCar h.cells.next xs).cell h.cells.next).1 = xs := by simp [Cells.setCar]
      dsimp only
      rw [this]
      refine h₂.keep fun l hl => ?_
      have hl' := (h₃ l hl).1
      simp only [Cells.cons] at hl'
      have : l ≠ h.cells.next := by omega
      simp [Cells.setCar, this]
    · intro l hl
      have : l ≠ h.cells.next := by omega
      simp only [Cells.setCar, this, if_false]
      rw [h₅ l (by simp only [Cells.cons]; omega)]
      simp [Cells.cons, this]

/-- Two procedures that call each other: the hypotheses of `C39_letrec` are met. -/
example : ∃ cs cb, List.Forall₂ (fun p c =>
      keyword G₀ (.sym p.lambda) (Form.list ([⟨30, 1, .nil, ls [ls [sy 31]]⟩,
        ⟨31, 1, .nil, ls [ls [sy 30]]⟩].map fun p : Procedure => Form.sym p.x) :: []) = some .lambda ∧
      genBody G₀ p.body (p.formals :: Form.list ([⟨30, 1, .nil, ls [ls [sy 31]]⟩,
        ⟨31, 1, .nil, ls [ls [sy 30]]⟩].map fun p : Procedure => Form.sym p.x) :: []) [.ret] = some c)
      [(⟨30, 1, .nil, ls [ls [sy 31]]⟩ : Procedure), ⟨31, 1, .nil, ls [ls [sy 30]]⟩] cs ∧
    genBody G₀ (ls [sy 30]) [Form.list [sy 30, sy 31]] [.ret] = some cb := by
  have h₁ : Parse G₀ [([], none), ([30, 31], none)] (ls [ls [sy 31]]) (.body (.app (.var 31) [])) := by
    parse
  have h₂ : Parse G₀ [([], none), ([30, 31], none)] (ls [ls [sy 30]]) (.body (.app (.var 30) [])) := by
    parse
  have h₃ : Parse G₀ [([30, 31], none)] (ls [sy 30]) (.body (.var 30)) := by
    parse
  have s₁ : ScopesOf [Form.list [sy 30, sy 31]] [([30, 31], none)] :=
    .cons (.cons _ (.cons _ .nil)) .nil
  exact ⟨_, _, .cons ⟨rfl, (parse_generate h₁ (.cons .nil s₁)).1 (.app _ (.var _ _) (by simp))⟩
    (.cons ⟨rfl, (parse_generate h₂ (.cons .nil s₁)).1 (.app _ (.var _ _) (by simp))⟩ .nil),
    (parse_generate h₃ s₁).1 (.var _ _)⟩

end Meevax.Secd
