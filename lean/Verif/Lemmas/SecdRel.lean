import Verif.Lemmas.Compile

/-!
How a state of the SECD machine represents a state of the specification: worlds, and the relations
on values, environments and continuations, which only grow with the world.
-/

namespace Meevax.Secd

open Scheme

/-- What is known about a cell that is an environment: the locations of the variables of the frame,
and the environment it extends. -/
structure EnvInfo where
  vars : List Nat
  rest : Option Nat
  parent : Value

/-- What a cell of the machine is for. -/
inductive Label where
  | free
  | user (a : Nat)
  | env (i : EnvInfo)
  | frame (l j : Nat)
  | arg (id k : Nat)

structure World where
  lab : Nat → Label
  place : Nat → Nat × Nat
  argv : Nat → Option (Value × List Val)

/-- What is never taken back. -/
structure World.le (W W' : World) : Prop where
  user : ∀ l a, W.lab l = .user a → W'.lab l = .user a
  env : ∀ l i, W.lab l = .env i → W'.lab l = .env i
  argv : ∀ id x, W.argv id = some x → W'.argv id = some x

theorem World.le.refl (W : World) : W.le W := ⟨fun _ _ h => h, fun _ _ h => h, fun _ _ h => h⟩

theorem World.le.trans {W₁ W₂ W₃ : World} (h : W₁.le W₂) (h' : W₂.le W₃) : W₁.le W₃ :=
  ⟨fun l a x => h'.user l a (h.user l a x), fun l a x => h'.env l a (h.env l a x),
   fun l a x => h'.argv l a (h.argv l a x)⟩

/-- A machine environment represents an environment. -/
inductive ERel (W : World) : Scopes → Env → Value → Prop where
  | nil : ERel W [] [] .nil
  | cons {fs : List Name} {rest : Option Name} {sc : Scopes} {ρ : Env} {l : Nat} {i : EnvInfo}
      (hl : W.lab l = .env i) (hv : i.vars.length = fs.length) (hr : i.rest.isSome = rest.isSome)
      (h : ERel W sc ρ i.parent) :
      ERel W ((fs, rest) :: sc) (bindings fs rest (i.vars ++ i.rest.toList) ++ ρ) (.pair l)

/-- In tail position of a procedure body, and elsewhere. -/
def TailOK (tail : Bool) (s : List Value) (k : Code) : Prop :=
  (tail = true → s = [] ∧ k = [.ret]) ∧ (tail = false → k ≠ [.ret])

/-- The code that calls. -/
def callCode (tail : Bool) (k : Code) : Code := if tail then [.tailCall] else .call :: k

def letrecCode (tail : Bool) (k : Code) : Code := if tail then [.tailLetrec] else .letrec :: k

/-- The registers represent a continuation, for a value that is about to be pushed. -/
inductive KRel (free : Name → Nat) (W : World) : Kont → List Value → Value → Code → Dump → Prop where
  | halt : KRel free W .halt [] .nil [.stop] .nil
  | ret {κ : Kont} {s : List Value} {e : Value} {c : Code} {d : Dump} (e' : Value)
      (hc : c ≠ [.ret]) (h : KRel free W κ s e c d) : KRel free W κ [] e' [.ret] (.frame s e c d)
  | join {κ : Kont} {s : List Value} {e : Value} {c : Code} {d : Dump}
      (hc : c ≠ [.ret]) (h : KRel free W κ s e c d) : KRel free W κ s e [.join] (.code c d)
  | ite {κ : Kont} {s : List Value} {e : Value} {k : Code} {d : Dump} {sc : Scopes} {ρ : Env}
      {t f : Expr} (he : ERel W sc ρ e) (ht : Placed false t) (hf : Placed false f)
      (hk : k ≠ [.ret]) (h : KRel free W κ s e k d) :
      KRel free W (.ite t f ρ κ) s e
        (.select (comp free sc t [.join] false) (comp free sc f [.join] false) :: k) d
  | iteTail {κ : Kont} {e : Value} {d : Dump} {sc : Scopes} {ρ : Env}
      {t f : Expr} (he : ERel W sc ρ e) (ht : Placed true t) (hf : Placed true f)
      (h : KRel free W κ [] e [.ret] d) :
      KRel free W (.ite t f ρ κ) [] e
        [.tailSelect (comp free sc t [.ret] true) (comp free sc f [.ret] true)] d
  | seq {κ : Kont} {s : List Value} {e : Value} {k : Code} {d : Dump} {sc : Scopes} {ρ : Env}
      {b : Expr} {tail : Bool} (he : ERel W sc ρ e) (hb : Placed tail b) (ht : TailOK tail s k)
      (h : KRel free W κ s e k d) :
      KRel free W (.seq b ρ κ) s e (.drop :: comp free sc b k tail) d
  | set {κ : Kont} {s : List Value} {e : Value} {k : Code} {d : Dump} {sc : Scopes} {ρ : Env}
      (x : Name) (he : ERel W sc ρ e) (h : KRel free W κ s e k d) :
      KRel free W (.set x ρ κ) s e (storeInstr (addr free x sc) :: k) d
  | install {κ : Kont} {s : List Value} {e : Value} {k : Code} {d : Dump} (i : Nat)
      (h : KRel free W κ s e k d) :
      KRel free W (.install i κ) s e (.install i :: k) d
  | arg {κ : Kont} {s : List Value} {e : Value} {k : Code} {d : Dump} {sc : Scopes} {ρ : Env}
      {id : Nat} {todo : List Expr} {vs : List Val} {f : Expr} {xs : Value} {tail : Bool}
      (he : ERel W sc ρ e) (hp : ∀ a ∈ todo, Placed false a) (hf : Placed false f)
      (ha : W.argv id = some (xs, vs)) (ht : TailOK tail s k) (h : KRel free W κ s e k d) :
      KRel free W (.arg id todo vs f ρ κ) (xs :: s) e
        (.cons :: compTodo free sc todo (comp free sc f (callCode tail k) false)) d
  | fn {κ : Kont} {s : List Value} {e : Value} {k : Code} {d : Dump}
      {id : Nat} {vs : List Val} {xs : Value} {tail : Bool}
      (ha : W.argv id = some (xs, vs)) (ht : TailOK tail s k) (h : KRel free W κ s e k d) :
      KRel free W (.fn id vs κ) (xs :: s) e (callCode tail k) d
  | init {κ : Kont} {s : List Value} {e : Value} {k : Code} {d : Dump} {sc : Scopes} {ρ : Env}
      {id : Nat} {todo : List Expr} {vs : List Val} {locs : List Nat} {body : Expr} {xs : Value}
      {ys : List Name} {l : Nat} {tail : Bool} (hl : W.lab l = .env ⟨locs, none, e⟩)
      (he : ERel W ((ys, none) :: sc) ρ (.pair l)) (hp : ∀ a ∈ todo, Placed false a)
      (hb : Placed true body) (ha : W.argv id = some (xs, vs)) (hn : locs.Nodup)
      (hlen : locs.length = todo.length + vs.length + 1)
      (ht : TailOK tail s k) (h : KRel free W κ s e k d) :
      KRel free W (.init id todo vs locs body ρ κ) (xs :: s) (.pair l)
        (.cons :: compTodo free ((ys, none) :: sc) todo
          (.loadClosure (comp free ((ys, none) :: sc) body [.ret] true) :: letrecCode tail k)) d
  | callcc {κ : Kont} {e : Value} {d : Dump} {id : Nat} {xs : Value}
      (ha : W.argv id = some (xs, [.cont κ])) (h : KRel free W κ [] e [.ret] d) :
      KRel free W (.callcc id κ) [xs] e [.tailCall] d

/-- A machine value represents a value. -/
inductive VRel (free : Name → Nat) (W : World) : Val → Value → Prop where
  | datum (d : Form) : VRel free W (.datum d) (.datum d)
  | pair {a l : Nat} (h : W.lab l = .user a) : VRel free W (.pair a) (.pair l)
  | prim (p : Nat) : VRel free W (.prim p) (.prim p)
  | closure {sc : Scopes} {fs : List Name} {rest : Option Name} {body : Expr} {ρ : Env} {e : Value}
      (he : ERel W sc ρ e) (hb : Placed true body) :
      VRel free W (.closure fs rest body ρ)
        (.closure (comp free ((fs, rest) :: sc) body [.ret] true) e)
  | cont {κ : Kont} {s : List Value} {e : Value} {c : Code} {d : Dump} (h : KRel free W κ s e c d) :
      VRel free W (.cont κ) (.cont s e c d)

theorem ERel.mono {W W' : World} (h : W.le W') {sc : Scopes} {ρ : Env} {e : Value}
    (he : ERel W sc ρ e) : ERel W' sc ρ e := by
  induction he with
  | nil => exact .nil
  | cons hl hv hr _ ih => exact .cons (h.env _ _ hl) hv hr ih

theorem KRel.mono {free : Name → Nat} {W W' : World} (hW : W.le W') {κ : Kont} {s : List Value}
    {e : Value} {c : Code} {d : Dump} (h : KRel free W κ s e c d) : KRel free W' κ s e c d := by
  induction h with
  | halt => exact .halt
  | ret e' hc _ ih => exact .ret e' hc ih
  | join hc _ ih => exact .join hc ih
  | ite he ht hf hk _ ih => exact .ite (he.mono hW) ht hf hk ih
  | iteTail he ht hf _ ih => exact .iteTail (he.mono hW) ht hf ih
  | seq he hb ht _ ih => exact .seq (he.mono hW) hb ht ih
  | set x he _ ih => exact .set x (he.mono hW) ih
  | install i _ ih => exact .install i ih
  | arg he hp hf ha ht _ ih => exact .arg (he.mono hW) hp hf (hW.argv _ _ ha) ht ih
  | fn ha ht _ ih => exact .fn (hW.argv _ _ ha) ht ih
  | init hl he hp hb ha hn hlen ht _ ih =>
    exact .init (hW.env _ _ hl) (he.mono hW) hp hb (hW.argv _ _ ha) hn hlen ht ih
  | callcc ha _ ih => exact .callcc (hW.argv _ _ ha) ih

theorem VRel.mono {free : Name → Nat} {W W' : World} (hW : W.le W') {v : Val} {m : Value}
    (h : VRel free W v m) : VRel free W' v m := by
  cases h with
  | datum d => exact .datum d
  | pair h => exact .pair (hW.user _ _ h)
  | prim p => exact .prim p
  | closure he hb => exact .closure (he.mono hW) hb
  | cont h => exact .cont (h.mono hW)

theorem VRel.truthy {free : Name → Nat} {W : World} {v : Val} {m : Value} (h : VRel free W v m) :
    m.truthy = v.truthy := by
  cases h with
  | datum d => cases d with
    | bool b => cases b <;> rfl
    | _ => rfl
  | _ => rfl

theorem storeInstr_ne (i : Identity) : storeInstr i ≠ .ret ∧ storeInstr i ≠ .join := by
  cases i <;> simp [storeInstr]

/-- The environment does not matter for a continuation that returns. -/
theorem KRel.returns {free : Name → Nat} {W : World} {κ : Kont} {s : List Value}
    {e : Value} {c : Code} {d : Dump} (h : KRel free W κ s e c d) (hc : c = [.ret]) :
    ∀ e', KRel free W κ [] e' [.ret] d := by
  cases h with
  | ret _ hne h => exact fun e' => .ret e' hne h
  | set x he h => simp [(storeInstr_ne _).1] at hc
  | fn ha ht h => rename_i t; cases t <;> simp [callCode] at hc
  | _ => simp at hc

/-- A list of arguments under construction: cells that belong to ticket `id`, the last one with
number 0. -/
def ArgList (free : Name → Nat) (W : World) (c : Cells) (id : Nat) : Value → List Val → Prop
  | xs, [] => xs = .nil
  | xs, v :: vs => ∃ l, xs = .pair l ∧ W.lab l = .arg id vs.length ∧ VRel free W v (c.cell l).1 ∧
      ArgList free W c id (c.cell l).2 vs

/-- A frame: the cells of the variables, from number `j` on, and then the variable for the rest. -/
def Frame (free : Name → Nat) (W : World) (vars : Nat → Option Val) (c : Cells) (l : Nat) :
    Nat → Value → List Nat → Option Nat → Prop
  | j, f, v :: vs, r => ∃ lc, f = .pair lc ∧ W.lab lc = .frame l j ∧
      (∃ sv, vars v = some sv ∧ VRel free W sv (c.cell lc).1) ∧
      Frame free W vars c l (j + 1) (c.cell lc).2 vs r
  | _, f, [], some r => ∃ sv, vars r = some sv ∧ VRel free W sv f
  | _, _, [], none => True

/-- The pairs of the program are represented. -/
structure PairsInv (free : Name → Nat) (W : World) (p : Pairs) (c : Cells) : Prop where
  user : ∀ l a, W.lab l = .user a → a < p.next ∧ VRel free W (p.pair a).1 (c.cell l).1 ∧
    VRel free W (p.pair a).2 (c.cell l).2
  inj : ∀ l l' a, W.lab l = .user a → W.lab l' = .user a → l = l'
  uniq : ∀ l l' id k, W.lab l = .arg id k → W.lab l' = .arg id k → l = l'
  alloc : ∀ l, W.lab l ≠ .free → l < c.next

/-- The environments are represented. -/
structure EnvOK (free : Name → Nat) (W : World) (vars : Nat → Option Val) (nvars : Nat) (c : Cells)
    (l : Nat) (i : EnvInfo) : Prop where
  parent : (c.cell l).2 = i.parent
  place : ∀ j v, i.vars[j]? = some v → W.place v = (l, j) ∧ v < nvars
  placeRest : ∀ v, i.rest = some v → W.place v = (l, i.vars.length) ∧ v < nvars
  frame : (i.rest = none ∧ ∀ v ∈ i.vars, vars v = none) ∨
    Frame free W vars c l 0 (c.cell l).1 i.vars i.rest

/-- The store is represented. -/
structure Inv (free : Name → Nat) (W : World) (σ : Store) (h : Heap) : Prop where
  pairs : PairsInv free W σ.pairs h.cells
  env : ∀ l i, W.lab l = .env i → EnvOK free W σ.vars σ.nvars h.cells l i
  args : ∀ id, σ.pending id = true → ∃ xs vs, W.argv id = some (xs, vs) ∧
    ArgList free W h.cells id xs vs
  ids : ∀ id, σ.nid ≤ id → W.argv id = none ∧ ∀ l k, W.lab l ≠ .arg id k
  globals : ∀ g, VRel free W (σ.globals g) (h.globals g)
  regs : ∀ i, VRel free W (σ.regs i) (h.regs i)

/-- A state of the machine represents a state of the specification. -/
def Repr (free : Name → Nat) (W : World) (st : Scheme.State) (m : State) : Prop :=
  Inv free W st.σ m.h ∧
  match st.ctl with
  | .eval e ρ => ∃ sc k tail, ERel W sc ρ m.e ∧ Placed tail e ∧ m.c = comp free sc e k tail ∧
      TailOK tail m.s k ∧ KRel free W st.κ m.s m.e k m.d
  | .value v => ∃ x s, m.s = x :: s ∧ VRel free W v x ∧ KRel free W st.κ s m.e m.c m.d

/-- What the primitives have to satisfy: given representations of the arguments, which are in a
list nobody else has, they yield a representation of the result, and touch no cells but those of the
program, those of the argument list, and new ones. -/
structure Grows (W W' : World) (c c' : Cells) (id : Nat) : Prop where
  place : W'.place = W.place
  argv : W'.argv = W.argv
  keep : ∀ l, W.lab l ≠ .free → (∀ k, W.lab l ≠ .arg id k) → W'.lab l = W.lab l
  new : ∀ l, W'.lab l = W.lab l ∨ ∃ a, W'.lab l = .user a
  cells : ∀ l, (∀ a, W.lab l ≠ .user a) → (∀ k, W.lab l ≠ .arg id k) → W.lab l ≠ .free →
    c'.cell l = c.cell l

structure PrimsOK (free : Name → Nat) (P : Scheme.Prims) (Q : Prims) : Prop where
  ok : ∀ (p : Nat) (W : World) (ps ps' : Pairs) (c : Cells) (id : Nat) (xs : Value) (vs : List Val)
    (v : Val), PairsInv free W ps c → ArgList free W c id xs vs → P p vs ps = .ok v ps' →
    ∃ W' m c', Q p xs c = .ok m c' ∧ Grows W W' c c' id ∧ PairsInv free W' ps' c' ∧
      VRel free W' v m
  throw : ∀ (p : Nat) (W : World) (ps ps' : Pairs) (c : Cells) (id : Nat) (xs : Value)
    (vs : List Val) (v : Val), PairsInv free W ps c → ArgList free W c id xs vs →
    P p vs ps = .throw v ps' →
    ∃ W' m c', Q p xs c = .throw m c' ∧ Grows W W' c c' id ∧ PairsInv free W' ps' c' ∧
      VRel free W' v m

end Meevax.Secd
