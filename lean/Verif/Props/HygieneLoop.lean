import Verif.Props.HygieneExamples

/-!
C53: a macro that defines an inserted identifier, used in a body.
-/

namespace Meevax.Expand.Loop

open Secd (Name Code)
open Example (s l tlist)

/-- The names: `lambda set! define def` are 0 to 3. -/
def globals (x : Name) : Option Nat := if x < 4 then some x else none

def value : Nat → Option Keyword
  | 0 => some (.syn .lambda)
  | 1 => some (.syn .set)
  | 2 => some (.syn .define)
  | 3 => some (.transformer 0)
  | _ => none

/-- `(def a)` is `(define t a)` with an inserted `t`, as in
`(define-values () expression)` (library/r7rs.ss L129-L132). -/
def template : Form → Template
  | .cons _ (.cons a .nil) => tlist [.insert (s 2), .insert (s 10), .use a]
  | _ => .use .nil

def W : World where
  value := value
  fresh := (· + 100)
  run _ := erTransformer template
  eval _ := 0

def st : St where
  next := 0
  made := 0
  envs _ := ⟨[], globals⟩
  nextEnv := 2
  macros t := (t, 1)
  nextMacro := 1
  alpha := []

/-- `((def 5))` -/
def bodyForm : Form := l [l [s 3, .atom 5]]

/-- The inserted keyword and variable. -/
def kw (m : Nat) : Form := .closure (.rename m) 1 [] (s 2)
def tmp (m : Nat) : Form := .closure (.rename m) 1 [] (s 10)

/-- `(define t 5)` -/
def definition (m : Nat) : Form := l [kw m, tmp (m + 1), .atom 5]

theorem sameScopes_refl (bv : Scopes) : sameScopes bv bv = true := by
  cases bv <;> simp [sameScopes]

theorem scan_pad (x : Name) (n i : Nat) : scan (.sym x) (List.replicate n Form.nil) i = none := by
  induction n generalizing i with
  | zero => rfl
  | succ n ih => simp [List.replicate_succ, scan, scanFormals, Form.isIdentifier, ih]

/-- What is known in every round. -/
structure Inv (bv : Scopes) (st : St) (e : Nat) (formals : List Form) : Prop where
  mac : st.envs 1 = ⟨[], globals⟩
  cur : (st.envs e).second = globals
  frame : (st.envs e).first = bv ∨ ∃ i, (st.envs e).first = (i, .ofList formals) :: bv
  next : 1 < st.nextEnv
  macros : st.macros 0 = (0, 1)
  old : ∀ f ∈ formals, ∃ k < st.made, f = tmp k

theorem identifyClosure_kw {st : St} (h : st.envs 1 = ⟨[], globals⟩) (bv : List Form) :
    identifyClosure st.envs 1 (s 2) bv = some (.absolute 2) := by
  simp only [identifyClosure, h, frames, List.map_nil, pad, List.append_nil, List.length_nil, Nat.sub_zero]
  rw [identify.eq_def]
  simp only [show s 2 = Form.sym 2 from rfl, scan_pad]
  rfl

theorem expand_definition {bv : Scopes} {st : St} {e : Nat} {formals : List Form} (h : Inv bv st e formals) (n m i : Nat) :
    expandClosure W n (.closure (.other i) e [] (definition m)) (st.envs e).first st = none ∨
    expandClosure W n (.closure (.other i) e [] (definition m)) (st.envs e).first st = some (definition m, st) := by
  rcases n with _ | n
  · exact .inl (by rw [expandClosure.eq_def])
  rw [expandClosure.eq_def]
  simp only [sameScopes_refl, if_true]
  rcases n with _ | n
  · exact .inl (by rw [expand.eq_def])
  have hk : headKeyword W (st.envs e).second (kw m) (st.envs e).first st = (some (.syn .define), st) := by
    simp only [headKeyword, kw, convert, identifyClosure_kw h.mac]
    rfl
  rw [expand.eq_def]
  simp only [definition, l, Form.ofList, show (kw m).isIdentifier = true from rfl, if_true, hk]
  rcases n with _ | n
  · exact .inl (by rw [expandSyntax.eq_def])
  rw [expandSyntax.eq_def]
  simp only [tmp, kw, convert]
  rcases n with _ | n
  · exact .inl (by rw [expand.eq_def]; rfl)
  · exact .inr (by rw [expand.eq_def]; rfl)

theorem scanFormals_old {formals : List Form} (h : ∀ f ∈ formals, ∃ k, f = tmp k) (i j m e : Nat) (d : Form) :
    scanFormals (.closure (.other m) e [] d) i (.ofList formals) j = none := by
  induction formals generalizing j with
  | nil => rfl
  | cons f fs ih =>
    obtain ⟨k, rfl⟩ := h f (by simp)
    simp only [Form.ofList, scanFormals, tmp]
    rw [if_neg (by simp), ih fun f hf => h f (by simp [hf])]

/-- The bound variables around: one frame without variables. -/
def outer (k : Nat) : Scopes := [(k, .nil)]

theorem identify_out {k : Nat} {st : St} {e : Nat} {formals : List Form} (h : Inv (outer k) st e formals) (i m : Nat) :
    identify st.envs globals (.closure (.other i) e [] (definition m)) (frames (st.envs e).first) = none := by
  have hs : scan (.closure (.other i) e [] (definition m)) (frames (st.envs e).first) 0 = none := by
    have ho : ∀ j, scan (.closure (.other i) e [] (definition m)) (frames (outer k)) j = none := fun j => by
      simp [outer, frames, scan, scanFormals, Form.isIdentifier]
    rcases h.frame with hf | ⟨j, hf⟩
    · rw [hf, ho]
    · rw [hf]
      show scan _ (Form.ofList formals :: frames (outer k)) 0 = none
      rw [scan, scanFormals_old fun f hf => ?_]
      · exact ho 1
      · obtain ⟨k, _, rfl⟩ := h.old f hf
        exact ⟨k, rfl⟩
  rw [identify.eq_def, hs]
  rfl

theorem sweep_none {k : Nat} : ∀ (n : Nat) (st : St) (e : Nat) (formals : List Form), Inv (outer k) st e formals →
    sweep W n globals bodyForm bodyForm (outer k) e formals [] st = none := by
  intro n
  induction n using Nat.strongRecOn with
  | _ n ih =>
    intro st e formals h
    rcases n with _ | n
    · rw [sweep.eq_def]
    rw [sweep.eq_def]
    have hd : identify st.envs globals (s 3) (frames (outer k)) = some (.absolute 3) := by
      rw [identify.eq_def]
      rfl
    simp only [bodyForm, l, Form.ofList, show (s 3).isIdentifier = true from rfl, if_true, hd,
      show keywordOf W (some (.absolute 3)) = some (.transformer 0) from rfl]
    have ht : transform W 0 (.cons (s 3) (.cons (.atom 5) .nil)) e st =
        (.closure (.other (st.made + 2)) e [] (definition st.made), { st with made := st.made + 3 }) := by
      simp only [transform, h.macros]
      rfl
    rw [ht]
    simp only
    obtain ⟨st', hst'⟩ : ∃ st' : St, st' = { st with made := st.made + 3 } := ⟨_, rfl⟩
    rw [← hst']
    have h' : Inv (outer k) st' e formals := by
      subst hst'
      exact ⟨h.mac, h.cur, h.frame, h.next, h.macros, fun f hf => by
        obtain ⟨j, hj, e⟩ := h.old f hf
        exact ⟨j, Nat.lt_of_lt_of_le hj (Nat.le_add_right _ 3), e⟩⟩
    rcases n with _ | n
    · rw [sweep.eq_def]
    rw [sweep.eq_def]
    simp only [identify_out h' (st.made + 2) st.made]
    rcases expand_definition h' n st.made (st.made + 2) with hn | hs
    · rw [hn]; rfl
    rw [hs]
    simp only [Option.bind_eq_bind, Option.bind_some]
    rcases n with _ | n
    · rw [sweep.eq_def]
    rw [sweep.eq_def]
    have hi : identify st'.envs globals (kw st.made) (frames (outer k)) = some (.absolute 2) := by
      have := identifyClosure_kw h'.mac (frames (outer k))
      rw [identify.eq_def]
      simp only [kw, outer, frames, List.map_cons, List.map_nil, scan, scanFormals, Form.isIdentifier, s,
        Bool.false_and, Bool.false_eq_true, if_false, if_true]
      simpa only [identifyClosure, outer, frames, List.map_cons, List.map_nil, s] using this
    simp only [definition, l, Form.ofList, show (kw st.made).isIdentifier = true from rfl, if_true, hi,
      show keywordOf W (some (.absolute 2)) = some (.syn .define) from rfl]
    have hc : formals.contains (tmp (st.made + 1)) = false := by
      rw [List.contains_eq_mem, decide_eq_false_iff_not]
      intro hm
      obtain ⟨j, hj, e⟩ := h.old _ hm
      simp only [tmp, Form.closure.injEq, Stamp.rename.injEq] at e
      omega
    simp only [tmp] at hc ⊢
    simp only [hc, Bool.false_eq_true, if_false, newEnv]
    refine ih n (by omega) _ _ _ ⟨?_, ?_, ?_, ?_, h'.macros, ?_⟩
    · have := h'.next
      show (if 1 = st'.nextEnv then _ else st'.envs 1) = _
      rw [if_neg (by omega)]
      exact h'.mac
    · simp
    · exact .inr ⟨st'.next, by simp⟩
    · exact Nat.lt_succ_of_lt h'.next
    · intro f hf
      rcases List.mem_append.1 hf with hf | hf
      · exact h'.old f hf
      · simp only [List.mem_singleton] at hf
        exact ⟨st.made + 1, by simp [hst'], hf⟩

/-- **C53 fails** for a macro in a body that defines a variable it inserts: the compiler does not end on
`(lambda () (def 5))`, where `(def a)` is `(define t a)`.  (So it is for `(define-values () expression)` in a
body.) -/
theorem C53_inserted_definition_fails (n : Nat) : compile W n globals (l [s 0, .nil, l [s 3, .atom 5]]) st = none := by
  have he : expandForm W n globals (l [s 0, .nil, l [s 3, .atom 5]]) [] st = none := by
    simp only [expandForm, newEnv]
    rcases n with _ | n
    · rw [expand.eq_def]
    rw [expand.eq_def]
    have hk : ∀ st' : St, st'.alpha = [⟨2, [], []⟩] →
        headKeyword W globals (s 0) [] st' = (some (.syn .lambda), st') := by
      intro st' h
      simp only [headKeyword, s, convert, h, convertSym, List.contains_nil, Bool.false_eq_true, if_false, List.lookup,
        List.isEmpty_nil, if_true, frames, List.map_nil]
      rw [identify.eq_def]
      cases st'
      simp only at h
      subst h
      rfl
    simp only [l, Form.ofList, show (s 0).isIdentifier = true from rfl, if_true]
    rw [hk _ rfl]
    simp only
    rcases n with _ | n
    · rw [expandSyntax.eq_def]
    rw [expandSyntax.eq_def]
    simp only [convertFormals, convertFormal]
    rcases n with _ | n
    · rw [body.eq_def]; rfl
    rw [body.eq_def]
    simp only [newEnv]
    generalize hX : sweep W n globals _ _ _ _ [] [] _ = X
    have : X = none := hX.symm.trans (sweep_none (k := 0) n
      { st with
        next := 1
        envs := fun e => if e = 3 then ⟨outer 0, globals⟩ else if e = 2 then ⟨[], globals⟩ else st.envs e
        nextEnv := 4
        alpha := [⟨2, [], []⟩] } 3 [] ⟨rfl, rfl, .inl rfl, by simp, rfl, by simp⟩)
    rw [this]
    rfl
  rw [compile, he]
  rfl

/-- The same with a variable that the use of the macro names is compiled. -/
theorem C53_named_definition : (compile { W with run := fun _ => erTransformer fun
      | .cons _ (.cons v (.cons a .nil)) => tlist [.insert (s 2), .use v, .use a]
      | _ => .use .nil } 80 globals (l [s 0, .nil, l [s 3, s 10, .atom 5]]) st).isSome := by
  decide +kernel

end Meevax.Expand.Loop
