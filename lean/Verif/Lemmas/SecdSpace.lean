import Verif.Spec.Space
import Verif.Lemmas.SecdMain

/-! A verifier for the code: heights of the stack, and what is on the dump. -/

namespace Meevax.Secd

open Scheme

/-- `Ok B top js h c`: the code can run with `h` operands on the stack and the dump entries `js` (the
heights at which the arms join) since the last call, or since the beginning if `top`. -/
inductive Ok (B : Nat) : Bool → List Nat → Nat → Code → Prop where
  | loadAbsolute {t js h c} (g) : h < B → Ok B t js (h + 1) c → Ok B t js h (.loadAbsolute g :: c)
  | loadRelative {t js h c} (i j) : h < B → Ok B t js (h + 1) c → Ok B t js h (.loadRelative i j :: c)
  | loadVariadic {t js h c} (i j) : h < B → Ok B t js (h + 1) c → Ok B t js h (.loadVariadic i j :: c)
  | loadConstant {t js h c} (k) : h < B → Ok B t js (h + 1) c → Ok B t js h (.loadConstant k :: c)
  | current {t js h c} (i) : h < B → Ok B t js (h + 1) c → Ok B t js h (.current i :: c)
  | loadClosure {t js h c c'} : h < B → Ok B false [] 0 c' → Ok B t js (h + 1) c →
      Ok B t js h (.loadClosure c' :: c)
  | loadContinuation {t js h c c'} : h < B → Ok B t js (h + 1) c' → Ok B t js (h + 1) c →
      Ok B t js h (.loadContinuation c' :: c)
  | select {t js h c c₁ c₂} : js.length < B → Ok B t ((h + 1) :: js) h c₁ →
      Ok B t ((h + 1) :: js) h c₂ → Ok B t js (h + 1) c → Ok B t js (h + 1) (.select c₁ c₂ :: c)
  | tailSelect {h c c₁ c₂} : Ok B false [] h c₁ → Ok B false [] h c₂ →
      Ok B false [] (h + 1) (.tailSelect c₁ c₂ :: c)
  | join {t js h c} : Ok B t (h :: js) h (.join :: c)
  | call {t js h c} : Ok B t js (h + 1) c → Ok B t js (h + 2) (.call :: c)
  | tailCall {h c} : Ok B false [] (h + 2) (.tailCall :: c)
  | dummy {t js h c} : Ok B t js h c → Ok B t js h (.dummy :: c)
  | letrec {t js h c} : Ok B t js (h + 1) c → Ok B t js (h + 2) (.letrec :: c)
  | tailLetrec {h c} : Ok B false [] (h + 2) (.tailLetrec :: c)
  | ret {h c} : Ok B false [] (h + 1) (.ret :: c)
  | cons {t js h c} : Ok B t js (h + 1) c → Ok B t js (h + 2) (.cons :: c)
  | drop {t js h c} : Ok B t js h c → Ok B t js (h + 1) (.drop :: c)
  | storeAbsolute {t js h c} (g) : Ok B t js (h + 1) c → Ok B t js (h + 1) (.storeAbsolute g :: c)
  | storeRelative {t js h c} (i j) : Ok B t js (h + 1) c → Ok B t js (h + 1) (.storeRelative i j :: c)
  | storeVariadic {t js h c} (i j) : Ok B t js (h + 1) c → Ok B t js (h + 1) (.storeVariadic i j :: c)
  | install {t js h c} (i) : Ok B t js (h + 1) c → Ok B t js (h + 1) (.install i :: c)
  | stop {h c} : Ok B true [] (h + 1) (.stop :: c)

mutual

/-- Closures and continuations hold code that can run. -/
inductive ValueOk (B : Nat) : Value → Prop where
  | datum (d) : ValueOk B (.datum d)
  | pair (l) : ValueOk B (.pair l)
  | prim (p) : ValueOk B (.prim p)
  | closure {c e} : Ok B false [] 0 c → ValueOk B e → ValueOk B (.closure c e)
  | cont {t js s e c d} : (∀ v ∈ s, ValueOk B v) → ValueOk B e → s.length < B →
      Ok B t js (s.length + 1) c → DumpOk B t js d → ValueOk B (.cont s e c d)

/-- So does the dump. -/
inductive DumpOk (B : Nat) : Bool → List Nat → Dump → Prop where
  | nil : DumpOk B true [] .nil
  | code {t js h c d} : js.length < B → Ok B t js h c → DumpOk B t js d → DumpOk B t (h :: js) (.code c d)
  | frame {t js s e c d} : (∀ v ∈ s, ValueOk B v) → ValueOk B e → s.length < B →
      Ok B t js (s.length + 1) c → DumpOk B t js d → DumpOk B false [] (.frame s e c d)

end

structure HeapOk (B : Nat) (h : Heap) : Prop where
  cells : ∀ l, ValueOk B (h.cells.cell l).1 ∧ ValueOk B (h.cells.cell l).2
  globals : ∀ g, ValueOk B (h.globals g)
  regs : ∀ i, ValueOk B (h.regs i)

abbrev CellsOk (B : Nat) (h : Cells) : Prop := ∀ l, ValueOk B (h.cell l).1 ∧ ValueOk B (h.cell l).2

structure StateOk (B : Nat) (t : Bool) (js : List Nat) (m : State) : Prop where
  s : ∀ v ∈ m.s, ValueOk B v
  len : m.s.length ≤ B
  e : ValueOk B m.e
  c : Ok B t js m.s.length m.c
  d : DumpOk B t js m.d
  h : HeapOk B m.h

/-- Primitive procedures that make no code of their own. -/
def Inert (Q : Prims) : Prop := ∀ B p xs h, ValueOk B xs → CellsOk B h →
  match Q p xs h with
  | .ok v h' => ValueOk B v ∧ CellsOk B h'
  | .throw v h' => ValueOk B v ∧ CellsOk B h'
  | .undefined => True

variable {B : Nat}

theorem CellsOk.cons {h : Cells} (hh : CellsOk B h) {a d : Value} (ha : ValueOk B a)
    (hd : ValueOk B d) : CellsOk B (h.cons a d) := by
  intro l
  simp only [Cells.cons]
  split
  · exact ⟨ha, hd⟩
  · exact hh l

theorem CellsOk.setCar {h : Cells} (hh : CellsOk B h) (l : Nat) {v : Value} (hv : ValueOk B v) :
    CellsOk B (h.setCar l v) := by
  intro l'
  simp only [Cells.setCar]
  split
  · exact ⟨hv, (hh l).2⟩
  · exact hh l'

theorem CellsOk.setCdr {h : Cells} (hh : CellsOk B h) (l : Nat) {v : Value} (hv : ValueOk B v) :
    CellsOk B (h.setCdr l v) := by
  intro l'
  simp only [Cells.setCdr]
  split
  · exact ⟨(hh l).1, hv⟩
  · exact hh l'

theorem CellsOk.car {h : Cells} (hh : CellsOk B h) {x v : Value} (hx : h.car x = some v) :
    ValueOk B v := by
  cases x <;> simp [Cells.car] at hx
  subst hx; exact (hh _).1

theorem CellsOk.cdr {h : Cells} (hh : CellsOk B h) {x v : Value} (hx : h.cdr x = some v) :
    ValueOk B v := by
  cases x <;> simp [Cells.cdr] at hx
  subst hx; exact (hh _).2

theorem CellsOk.tail {h : Cells} (hh : CellsOk B h) : ∀ {k : Nat} {x v : Value}, ValueOk B x →
    h.tail x k = some v → ValueOk B v
  | 0, x, v, hx, hv => by simp [Cells.tail] at hv; exact hv ▸ hx
  | k + 1, x, v, hx, hv => by
    simp only [Cells.tail, Option.bind_eq_bind, Option.bind_eq_some_iff] at hv
    obtain ⟨y, hy, hv⟩ := hv
    exact CellsOk.tail hh (hh.cdr hy) hv

theorem CellsOk.head {h : Cells} (hh : CellsOk B h) {k : Nat} {x v : Value} (hv : h.head x k = some v) :
    ValueOk B v := by
  simp only [Cells.head, Option.bind_eq_bind, Option.bind_eq_some_iff] at hv
  obtain ⟨y, hy, hv⟩ := hv
  exact hh.car hv

theorem CellsOk.setHead {h h' : Cells} (hh : CellsOk B h) {k : Nat} {x v : Value} (hv : ValueOk B v)
    (he : h.setHead x k v = some h') : CellsOk B h' := by
  simp only [Cells.setHead, Option.bind_eq_bind, Option.bind_eq_some_iff] at he
  obtain ⟨y, hy, he⟩ := he
  cases y <;> simp at he
  subst he; exact hh.setCar _ hv

theorem CellsOk.setTail {h h' : Cells} (hh : CellsOk B h) {i j : Nat} {x v : Value} (hv : ValueOk B v)
    (he : h.setTail x i j v = some h') : CellsOk B h' := by
  cases j with
  | zero => exact hh.setHead hv he
  | succ j =>
    simp only [Cells.setTail, Option.bind_eq_bind, Option.bind_eq_some_iff] at he
    obtain ⟨y, hy, z, hz, he⟩ := he
    cases z <;> simp at he
    subst he; exact hh.setCdr _ hv

theorem inert_of {o : Option (Value × Cells)}
    (h : ∀ v h', o = some (v, h') → ValueOk B v ∧ CellsOk B h') :
    match PrimResult.ofOption o with
    | .ok v h' => ValueOk B v ∧ CellsOk B h'
    | .throw v h' => ValueOk B v ∧ CellsOk B h'
    | .undefined => True := by
  cases o with
  | none => trivial
  | some p => exact h _ _ rfl

theorem CellsOk.first {h : Cells} (hh : CellsOk B h) {x v : Value} (hx : h.first x = some v) :
    ValueOk B v := by
  unfold Cells.first at hx
  split at hx
  · cases hx; exact (hh _).1
  · cases hx; exact .datum _
  · cases hx

theorem CellsOk.second {h : Cells} (hh : CellsOk B h) {x v : Value} (hx : h.second x = some v) :
    ValueOk B v := by
  unfold Cells.second at hx
  split at hx
  · cases hx; exact (hh _).2
  · cases hx; exact .datum _
  · cases hx

theorem core_inert : Inert core := by
  intro B p xs h hx hh
  match p with
  | 0 =>
    refine inert_of fun v h' he => ?_
    simp only [Option.bind_eq_bind, Option.bind_eq_some_iff, Option.some.injEq, Prod.mk.injEq] at he
    obtain ⟨a, ha, b, hb, c, hc, rfl, rfl⟩ := he
    exact ⟨.pair _, hh.cons (hh.car ha) (hh.car hc)⟩
  | 1 =>
    refine inert_of fun v h' he => ?_
    simp only [Option.bind_eq_bind, Option.bind_eq_some_iff, Option.some.injEq, Prod.mk.injEq] at he
    obtain ⟨a, ha, b, hb, rfl, rfl⟩ := he
    exact ⟨hh.first hb, hh⟩
  | 2 =>
    refine inert_of fun v h' he => ?_
    simp only [Option.bind_eq_bind, Option.bind_eq_some_iff, Option.some.injEq, Prod.mk.injEq] at he
    obtain ⟨a, ha, b, hb, rfl, rfl⟩ := he
    exact ⟨hh.second hb, hh⟩
  | 3 =>
    refine inert_of fun v h' he => ?_
    simp only [Option.bind_eq_bind, Option.bind_eq_some_iff] at he
    obtain ⟨a, ha, b, hb, c, hc, he⟩ := he
    cases c <;> simp at he
    obtain ⟨rfl, rfl⟩ := he
    exact ⟨hh.car hb, hh.setCar _ (hh.car hb)⟩
  | 4 =>
    refine inert_of fun v h' he => ?_
    simp only [Option.bind_eq_bind, Option.bind_eq_some_iff] at he
    obtain ⟨a, ha, b, hb, c, hc, he⟩ := he
    cases c <;> simp at he
    obtain ⟨rfl, rfl⟩ := he
    exact ⟨hh.car hb, hh.setCdr _ (hh.car hb)⟩
  | 5 => exact ⟨hx, hh⟩
  | 6 =>
    refine inert_of fun v h' he => ?_
    simp only [Option.bind_eq_bind, Option.bind_eq_some_iff, Option.some.injEq, Prod.mk.injEq] at he
    obtain ⟨a, ha, rfl, rfl⟩ := he
    exact ⟨.datum _, hh⟩
  | 7 =>
    refine inert_of fun v h' he => ?_
    simp only [Option.bind_eq_bind, Option.bind_eq_some_iff, Option.some.injEq, Prod.mk.injEq] at he
    obtain ⟨a, ha, rfl, rfl⟩ := he
    exact ⟨.datum _, hh⟩
  | 8 =>
    refine inert_of fun v h' he => ?_
    simp only [Option.bind_eq_bind, Option.bind_eq_some_iff, Option.some.injEq, Prod.mk.injEq] at he
    obtain ⟨a, ha, rfl, rfl⟩ := he
    exact ⟨.datum _, hh⟩
  | 9 =>
    refine inert_of fun v h' he => ?_
    simp only [Option.bind_eq_bind, Option.bind_eq_some_iff] at he
    obtain ⟨a, ha, b, hb, c, hc, he⟩ := he
    split at he
    · cases he; exact ⟨.datum _, hh⟩
    · cases he
  | 10 =>
    simp only [core]
    cases hc : h.car xs with
    | none => trivial
    | some v => exact ⟨hh.car hc, hh⟩
  | p + 11 => trivial

theorem HeapOk.set {h : Heap} (hh : HeapOk B h) {cells : Cells} (hc : CellsOk B cells) :
    HeapOk B { h with cells } := ⟨hc, hh.globals, hh.regs⟩

theorem not_underflow {t : Bool} {js : List Nat} {m : State} (h : StateOk B t js m) : ¬ Underflow m := by
  obtain ⟨s, e, c, d, hp⟩ := m
  obtain ⟨-, -, -, hc, hd, -⟩ := h
  dsimp only at hc hd
  generalize hn : s.length = n at hc
  unfold Underflow
  cases hc <;> simp only [Instr.operands]
  case join => cases hd; simp
  case ret => cases hd; simp [hn]
  case tailCall => cases hd; simp [hn]
  all_goals simp [hn]

theorem Ok.cast {t : Bool} {js : List Nat} {h h' : Nat} {c : Code} (H : Ok B t js h c) (e : h = h') :
    Ok B t js h' c := e ▸ H

/-- The verifier is sound: one step. -/
theorem step_ok {Q : Prims} (hQ : Inert Q) {t : Bool} {js : List Nat} {m : State}
    (h : StateOk B t js m) :
    match step Q m with
    | .next m' => ∃ t' js', StateOk B t' js' m'
    | .halt v h' => ValueOk B v ∧ HeapOk B h'
    | .raise v h' => ValueOk B v ∧ HeapOk B h'
    | .stuck => True := by
  obtain ⟨s, e, c, d, hp⟩ := m
  obtain ⟨hs, hl, he, hc, hd, hh⟩ := h
  dsimp only at hs hl he hc hd hh
  have hcells : CellsOk B hp.cells := hh.cells
  have push : ∀ {v : Value}, ValueOk B v → ∀ w ∈ v :: s, ValueOk B w := by
    intro v hv w hw
    rcases List.mem_cons.1 hw with rfl | hw
    · exact hv
    · exact hs w hw
  generalize hn : s.length = n at hc
  cases c with
  | nil => cases hc
  | cons i c =>
  cases i with
  | loadAbsolute g =>
    cases hc with | loadAbsolute _ hb hc =>
    exact ⟨t, js, push (hh.globals g), by simp only [List.length_cons]; omega, he, hc.cast (by simp [hn]), hd, hh⟩
  | loadRelative i j =>
    cases hc with | loadRelative _ _ hb hc =>
    simp only [step]
    cases h₁ : hp.cells.head e i with
    | none => trivial
    | some f =>
      simp only [Option.bind_eq_bind, Option.bind_some]
      cases h₂ : hp.cells.head f j with
      | none => trivial
      | some v => exact ⟨t, js, push (hcells.head h₂), by simp only [List.length_cons]; omega, he, hc.cast (by simp [hn]), hd, hh⟩
  | loadVariadic i j =>
    cases hc with | loadVariadic _ _ hb hc =>
    simp only [step]
    cases h₁ : hp.cells.head e i with
    | none => trivial
    | some f =>
      simp only [Option.bind_eq_bind, Option.bind_some]
      cases h₂ : hp.cells.tail f j with
      | none => trivial
      | some v =>
        exact ⟨t, js, push (hcells.tail (hcells.head h₁) h₂), by simp only [List.length_cons]; omega, he, hc.cast (by simp [hn]), hd, hh⟩
  | loadConstant k =>
    cases hc with | loadConstant _ hb hc =>
    exact ⟨t, js, push (.datum k), by simp only [List.length_cons]; omega, he, hc.cast (by simp [hn]), hd, hh⟩
  | loadClosure c' =>
    cases hc with | loadClosure hb hc' hc =>
    exact ⟨t, js, push (.closure hc' he), by simp only [List.length_cons]; omega, he, hc.cast (by simp [hn]), hd, hh⟩
  | loadContinuation c' =>
    cases hc with | loadContinuation hb hc' hc =>
    exact ⟨t, js, push (.pair _), by simp only [List.length_cons]; omega, he, hc.cast (by simp [hn]), hd,
      hh.set (hcells.cons (.cont hs he (hn ▸ hb) (hc'.cast (by rw [hn])) hd) (.datum _))⟩
  | current i =>
    cases hc with | current _ hb hc =>
    exact ⟨t, js, push (hh.regs i), by simp only [List.length_cons]; omega, he, hc.cast (by simp [hn]), hd, hh⟩
  | select c₁ c₂ =>
    cases s with
    | nil => cases hc <;> simp at hn
    | cons v s =>
      cases hc with | select hb h₁ h₂ hc =>
      have hn' := Nat.succ.inj hn
      subst hn'
      refine ⟨t, (s.length + 1) :: js, fun w hw => hs w (by simp [hw]), ?_, he, ?_, .code hb hc hd, hh⟩
      · simp at hl ⊢; omega
      · simp only; split <;> assumption
  | tailSelect c₁ c₂ =>
    cases s with
    | nil => cases hc <;> simp at hn
    | cons v s =>
      cases hc with | tailSelect h₁ h₂ =>
      have hn' := Nat.succ.inj hn
      subst hn'
      refine ⟨false, [], fun w hw => hs w (by simp [hw]), ?_, he, ?_, hd, hh⟩
      · simp at hl ⊢; omega
      · simp only; split <;> assumption
  | join =>
    cases hc with | join =>
    cases hd with | code hb hc hd =>
    exact ⟨t, _, hs, hl, he, hc.cast hn.symm, hd, hh⟩
  | call =>
    match s, hs, hl, hn with
    | [], _, _, hn => cases hc; simp at hn
    | [_], _, _, hn => cases hc; simp at hn
    | f :: xs :: s, hs, hl, hn =>
      simp only [List.length_cons] at hl hn
      cases hc with | call hc =>
      have hn' := Nat.succ.inj (Nat.succ.inj hn)
      subst hn'
      have hf := hs f (by simp)
      have hx := hs xs (by simp)
      have hs' : ∀ w ∈ s, ValueOk B w := fun w hw => hs w (by simp [hw])
      simp only [step, call]
      cases hf with
      | datum d => exact ⟨.datum d, hh⟩
      | pair l => exact ⟨.pair l, hh⟩
      | closure hc' he' =>
        exact ⟨false, [], by simp, by simp, .pair _, hc', .frame hs' he (by omega) hc hd,
          hh.set (hcells.cons hx he')⟩
      | prim p =>
        have := hQ B p xs hp.cells hx hcells
        dsimp only
        split at this
        · rename_i v h' hr
          simp only [hr]
          refine ⟨t, js, ?_, by simp; omega, he, hc, hd, hh.set this.2⟩
          intro w hw
          rcases List.mem_cons.1 hw with rfl | hw
          · exact this.1
          · exact hs' w hw
        · rename_i v h' hr
          simp only [hr]
          exact ⟨this.1, hh.set this.2⟩
        · rename_i hr
          simp only [hr]
      | cont hs₁ he₁ hl₁ hc₁ hd₁ =>
        dsimp only
        cases hr : hp.cells.car xs with
        | none => trivial
        | some v =>
          refine ⟨_, _, ?_, by simp; omega, he₁, hc₁, hd₁, hh⟩
          intro w hw
          rcases List.mem_cons.1 hw with rfl | hw
          · exact hcells.car hr
          · exact hs₁ w hw
  | tailCall =>
    match s, hs, hl, hn with
    | [], _, _, hn => cases hc; simp at hn
    | [_], _, _, hn => cases hc; simp at hn
    | f :: xs :: s, hs, hl, hn =>
      simp only [List.length_cons] at hl hn
      cases hc with | tailCall =>
      have hn' := Nat.succ.inj (Nat.succ.inj hn)
      subst hn'
      have hf := hs f (by simp)
      have hx := hs xs (by simp)
      simp only [step, tailCall]
      cases hf with
      | datum d => exact ⟨.datum d, hh⟩
      | pair l => exact ⟨.pair l, hh⟩
      | closure hc' he' =>
        exact ⟨false, [], by simp, by simp, .pair _, hc', hd, hh.set (hcells.cons hx he')⟩
      | prim p =>
        have := hQ B p xs hp.cells hx hcells
        dsimp only
        split at this
        · rename_i v h' hr
          simp only [hr]
          cases hd with | frame hs₁ he₁ hl₁ hc₁ hd₁ =>
          refine ⟨_, _, ?_, by simp; omega, he₁, hc₁, hd₁, hh.set this.2⟩
          intro w hw
          rcases List.mem_cons.1 hw with rfl | hw
          · exact this.1
          · exact hs₁ w hw
        · rename_i v h' hr
          simp only [hr]
          exact ⟨this.1, hh.set this.2⟩
        · rename_i hr
          simp only [hr]
      | cont hs₁ he₁ hl₁ hc₁ hd₁ =>
        dsimp only
        cases hr : hp.cells.car xs with
        | none => trivial
        | some v =>
          refine ⟨_, _, ?_, by simp; omega, he₁, hc₁, hd₁, hh⟩
          intro w hw
          rcases List.mem_cons.1 hw with rfl | hw
          · exact hcells.car hr
          · exact hs₁ w hw
  | dummy =>
    cases hc with | dummy hc =>
    exact ⟨t, js, hs, hl, .pair _, hc.cast hn.symm, hd, hh.set (hcells.cons (.datum _) he)⟩
  | letrec =>
    match s, hs, hl, hn with
    | [], _, _, hn => cases hc; simp at hn
    | [_], _, _, hn => cases hc; simp at hn
    | f :: xs :: s, hs, hl, hn =>
      simp only [List.length_cons] at hl hn
      cases hc with | letrec hc =>
      have hn' := Nat.succ.inj (Nat.succ.inj hn)
      subst hn'
      have hf := hs f (by simp)
      have hx := hs xs (by simp)
      have hs' : ∀ w ∈ s, ValueOk B w := fun w hw => hs w (by simp [hw])
      simp only [step]
      cases hf with
      | closure hc' he' =>
        cases he' with
        | pair l =>
          simp only [enterLetrec, Option.bind_eq_bind, Option.bind_some]
          cases h₁ : (hp.cells.setCar l xs).cdr e with
          | none => trivial
          | some e' =>
            have hcells' := hcells.setCar l hx
            exact ⟨false, [], by simp, by simp, .pair _, hc',
              .frame hs' (hcells'.cdr h₁) (by omega) hc hd, hh.set hcells'⟩
        | _ => trivial
      | _ => trivial
  | tailLetrec =>
    match s, hs, hl, hn with
    | [], _, _, hn => cases hc; simp at hn
    | [_], _, _, hn => cases hc; simp at hn
    | f :: xs :: s, hs, hl, hn =>
      cases hc with | tailLetrec =>
      have hf := hs f (by simp)
      have hx := hs xs (by simp)
      simp only [step]
      cases hf with
      | closure hc' he' =>
        cases he' with
        | pair l =>
          exact ⟨false, [], by simp, by simp, .pair _, hc', hd, hh.set (hcells.setCar l hx)⟩
        | _ => trivial
      | _ => trivial
  | ret =>
    cases s with
    | nil => cases hc <;> simp at hn
    | cons v s =>
      cases hc with | ret =>
      have hn' := Nat.succ.inj hn
      subst hn'
      cases hd with | frame hs₁ he₁ hl₁ hc₁ hd₁ =>
      refine ⟨_, _, ?_, by simp; omega, he₁, hc₁, hd₁, hh⟩
      intro w hw
      rcases List.mem_cons.1 hw with rfl | hw
      · exact hs _ (by simp)
      · exact hs₁ w hw
  | cons =>
    match s, hs, hl, hn with
    | [], _, _, hn => cases hc; simp at hn
    | [_], _, _, hn => cases hc; simp at hn
    | x :: y :: s, hs, hl, hn =>
      simp only [List.length_cons] at hl hn
      cases hc with | cons hc =>
      have hn' := Nat.succ.inj (Nat.succ.inj hn)
      subst hn'
      refine ⟨t, js, ?_, by simp at hl ⊢; omega, he, hc, hd,
        hh.set (hcells.cons (hs x (by simp)) (hs y (by simp)))⟩
      intro w hw
      rcases List.mem_cons.1 hw with rfl | hw
      · exact .pair _
      · exact hs w (by simp [hw])
  | drop =>
    cases s with
    | nil => cases hc <;> simp at hn
    | cons v s =>
      cases hc with | drop hc =>
      have hn' := Nat.succ.inj hn
      subst hn'
      exact ⟨t, js, fun w hw => hs w (by simp [hw]), by simp at hl ⊢; omega, he, hc, hd, hh⟩
  | storeAbsolute g =>
    cases s with
    | nil => cases hc <;> simp at hn
    | cons v s =>
      cases hc with | storeAbsolute _ hc =>
      have hn' := Nat.succ.inj hn
      subst hn'
      refine ⟨t, js, hs, hl, he, hc, hd, hh.cells, fun g' => ?_, hh.regs⟩
      simp only [update]
      split
      · exact hs v (by simp)
      · exact hh.globals g'
  | storeRelative i j =>
    cases s with
    | nil => cases hc <;> simp at hn
    | cons v s =>
      cases hc with | storeRelative _ _ hc =>
      have hn' := Nat.succ.inj hn
      subst hn'
      simp only [step]
      cases h₁ : hp.cells.head e i with
      | none => trivial
      | some f =>
        simp only [Option.bind_eq_bind, Option.bind_some]
        cases h₂ : hp.cells.setHead f j v with
        | none => trivial
        | some cells => exact ⟨t, js, hs, hl, he, hc, hd, hh.set (hcells.setHead (hs v (by simp)) h₂)⟩
  | storeVariadic i j =>
    cases s with
    | nil => cases hc <;> simp at hn
    | cons v s =>
      cases hc with | storeVariadic _ _ hc =>
      have hn' := Nat.succ.inj hn
      subst hn'
      simp only [step]
      cases h₂ : hp.cells.setTail e i j v with
      | none => trivial
      | some cells => exact ⟨t, js, hs, hl, he, hc, hd, hh.set (hcells.setTail (hs v (by simp)) h₂)⟩
  | install i =>
    cases s with
    | nil => cases hc <;> simp at hn
    | cons v s =>
      cases hc with | install _ hc =>
      have hn' := Nat.succ.inj hn
      subst hn'
      refine ⟨t, js, hs, hl, he, hc, hd, hh.cells, hh.globals, fun g' => ?_⟩
      simp only [update]
      split
      · exact hs v (by simp)
      · exact hh.regs g'
  | stop =>
    cases s with
    | nil => cases hc <;> simp at hn
    | cons v s => exact ⟨hs v (by simp), hh⟩

theorem Ok.load {t : Bool} {js : List Nat} {h : Nat} {c : Code} (a : Identity) (hb : h < B)
    (hc : Ok B t js (h + 1) c) : Ok B t js h (loadInstr a :: c) := by
  cases a
  · exact .loadRelative _ _ hb hc
  · exact .loadVariadic _ _ hb hc
  · exact .loadAbsolute _ hb hc

theorem Ok.store {t : Bool} {js : List Nat} {h : Nat} {c : Code} (a : Identity)
    (hc : Ok B t js (h + 1) c) : Ok B t js (h + 1) (storeInstr a :: c) := by
  cases a
  · exact .storeRelative _ _ hc
  · exact .storeVariadic _ _ hc
  · exact .storeAbsolute _ hc

mutual

/-- Generated code passes the verifier. -/
theorem comp_ok (free : Name → Nat) (sc : Scopes) : ∀ (e : Expr) (k : Code) (tail t : Bool)
    (js : List Nat) (h : Nat), Placed tail e → (tail = true → t = false ∧ js = []) →
    h + e.nesting ≤ B → js.length + e.nesting ≤ B → Ok B t js (h + 1) k →
    Ok B t js h (comp free sc e k tail)
  | .const d, k, tail, t, js, h, hp, ht, hb, hj, hk => by
    simp only [Expr.nesting] at hb
    exact .loadConstant _ (by omega) hk
  | .var x, k, tail, t, js, h, hp, ht, hb, hj, hk => by
    simp only [Expr.nesting] at hb
    exact .load _ (by omega) hk
  | .lam fs rest body, k, tail, t, js, h, hp, ht, hb, hj, hk => by
    simp only [Expr.nesting] at hb
    cases hp with | lam _ _ _ hp =>
    exact .loadClosure (by omega)
      (comp_ok free _ body [.ret] true false [] 0 hp (by simp) (by omega) (by simp; omega) .ret) hk
  | .app f args, k, tail, t, js, h, hp, ht, hb, hj, hk => by
    simp only [Expr.nesting] at hb hj
    cases hp with | app _ hf ha =>
    refine .loadConstant _ (by omega) (compArgs_ok free sc args _ t js h ha (by omega) (by omega)
      (comp_ok free sc f _ false t js (h + 1) hf (by simp) (by omega) (by omega) ?_))
    split
    · obtain ⟨rfl, rfl⟩ := ht (by assumption)
      exact .tailCall
    · exact .call hk
  | .ite a b c, k, tail, t, js, h, hp, ht, hb, hj, hk => by
    simp only [Expr.nesting] at hb hj
    cases hp with | ite ha h₁ h₂ =>
    cases tail with
    | true =>
      obtain ⟨rfl, rfl⟩ := ht rfl
      exact comp_ok free sc a _ false false [] h ha (by simp) (by omega) (by omega)
        (.tailSelect (comp_ok free sc b k true false [] h h₁ (by simp) (by omega) (by omega) hk)
          (comp_ok free sc c k true false [] h h₂ (by simp) (by omega) (by omega) hk))
    | false =>
      exact comp_ok free sc a _ false t js h ha (by simp) (by omega) (by omega)
        (.select (by omega)
          (comp_ok free sc b _ false t _ h h₁ (by simp) (by omega) (by simp; omega) .join)
          (comp_ok free sc c _ false t _ h h₂ (by simp) (by omega) (by simp; omega) .join) hk)
  | .set x e, k, tail, t, js, h, hp, ht, hb, hj, hk => by
    simp only [Expr.nesting] at hb hj
    cases hp with | set _ _ he =>
    exact comp_ok free sc e _ false t js h he (by simp) (by omega) (by omega) (.store _ hk)
  | .letrec xs es body, k, tail, t, js, h, hp, ht, hb, hj, hk => by
    simp only [Expr.nesting] at hb hj
    cases hp with | letrec _ _ hl hes hbody =>
    have h0 : 0 < body.nesting := by cases body <;> simp [Expr.nesting]
    refine .dummy (.loadConstant _ (by omega) (compArgs_ok free _ es _ t js h hes (by omega) (by omega)
      (.loadClosure (by omega) (comp_ok free _ body [.ret] true false [] 0 hbody (by simp) (by omega)
        (by simp; omega) .ret) ?_)))
    split
    · obtain ⟨rfl, rfl⟩ := ht (by assumption)
      exact .tailLetrec
    · exact .letrec hk
  | .seq a b, k, tail, t, js, h, hp, ht, hb, hj, hk => by
    simp only [Expr.nesting] at hb hj
    cases hp with | seq ha h₁ =>
    exact comp_ok free sc a _ false t js h ha (by simp) (by omega) (by omega)
      (.drop (comp_ok free sc b k tail t js h h₁ ht (by omega) (by omega) hk))
  | .callcc f, k, tail, t, js, h, hp, ht, hb, hj, hk => by
    simp only [Expr.nesting] at hb hj
    cases hp with
    | callccVar x =>
      obtain ⟨rfl, rfl⟩ := ht rfl
      simp only [Expr.nesting] at hb
      exact .loadContinuation (by omega) hk (.load (h := h + 1) _ (by omega) .tailCall)
    | callccLam fs rest hp =>
      obtain ⟨rfl, rfl⟩ := ht rfl
      simp only [Expr.nesting] at hb
      exact .loadContinuation (by omega) hk (.loadClosure (by omega)
        (comp_ok free _ _ [.ret] true false [] 0 hp (by simp) (by omega) (by simp; omega) .ret)
        .tailCall)
  | .current i, k, tail, t, js, h, hp, ht, hb, hj, hk => by
    simp only [Expr.nesting] at hb
    exact .current _ (by omega) hk
  | .install i e, k, tail, t, js, h, hp, ht, hb, hj, hk => by
    simp only [Expr.nesting] at hb hj
    cases hp with | install _ _ he =>
    exact comp_ok free sc e _ false t js h he (by simp) (by omega) (by omega) (.install _ hk)

theorem compArgs_ok (free : Name → Nat) (sc : Scopes) : ∀ (es : List Expr) (k : Code) (t : Bool)
    (js : List Nat) (h : Nat), (∀ e ∈ es, Placed false e) → h + 1 + nestingArgs es ≤ B →
    js.length + nestingArgs es ≤ B → Ok B t js (h + 1) k → Ok B t js (h + 1) (compArgs free sc es k)
  | [], k, t, js, h, hp, hb, hj, hk => hk
  | e :: es, k, t, js, h, hp, hb, hj, hk => by
    simp only [nestingArgs] at hb hj
    exact compArgs_ok free sc es _ t js h (fun e he => hp e (by simp [he])) (by omega) (by omega)
      (comp_ok free sc e _ false t js (h + 1) (hp e (by simp)) (by simp) (by omega) (by omega)
        (.cons hk))

end

theorem run_ok {Q : Prims} (hQ : Inert Q) : ∀ (n : Nat) {t : Bool} {js : List Nat} {m : State},
    StateOk B t js m →
    match run Q n m with
    | .running m' => ∃ t' js', StateOk B t' js' m'
    | .halt v h' => ValueOk B v ∧ HeapOk B h'
    | .raise v h' => ValueOk B v ∧ HeapOk B h'
    | .stuck => True
  | 0, t, js, m, h => ⟨t, js, h⟩
  | n + 1, t, js, m, h => by
    have := step_ok hQ h
    simp only [run]
    split at this
    · rename_i m' hm
      obtain ⟨t', js', h'⟩ := this
      simp only [hm]
      exact run_ok hQ n h'
    · rename_i hm; simp only [hm]; exact this
    · rename_i hm; simp only [hm]; exact this
    · rename_i hm; simp only [hm]

theorem reaches_ok {Q : Prims} (hQ : Inert Q) {h : Heap} {codes : List Code} {m : State}
    (hr : Reaches Q h codes m) (hh : HeapOk B h) (hc : ∀ c ∈ codes, Ok B true [] 0 c) :
    ∃ t js, StateOk B t js m := by
  have hst : ∀ {h : Heap} {c : Code}, HeapOk B h → Ok B true [] 0 c → StateOk B true [] (start c h) :=
    fun hh hc => ⟨by simp [start], by simp [start], .datum _, hc, .nil, hh⟩
  induction hr with
  | here n hr =>
    have := run_ok hQ n (hst hh (hc _ (List.mem_cons_self ..)))
    rwa [hr] at this
  | later n hr _ ih =>
    have := run_ok hQ n (hst hh (hc _ (List.mem_cons_self ..)))
    rw [hr] at this
    exact ih this.2 fun c h => hc c (by simp [h])

theorem initial_ok (g r : Nat → Base) : HeapOk B (Secd.initial g r) := by
  have : ∀ b, ValueOk B (ofBase b) := by
    intro b; cases b <;> constructor
  exact ⟨fun l => ⟨.datum _, .datum _⟩, fun i => this _, fun i => this _⟩

theorem DumpOk.length {t : Bool} {js : List Nat} {d : Dump} (h : DumpOk B t js d) : js.length ≤ B := by
  cases h with
  | nil => simp
  | code h => simp only [List.length_cons]; omega
  | frame => simp

theorem DumpOk.space {t : Bool} {js : List Nat} : ∀ {d : Dump}, DumpOk B t js d →
    d.space ≤ (2 * B + 1) * d.frames + js.length
  | .nil, h => by simp [Dump.space]
  | .code c d, h => by
    cases h with | code hb hc hd =>
    have := hd.space
    simp only [Dump.space, Dump.frames, List.length_cons]
    omega
  | .frame s e c d, h => by
    cases h with | frame hs he hl hc hd =>
    have := hd.space
    have hj := hd.length
    simp only [Dump.space, Dump.frames, Nat.mul_add]
    simp only [List.length_nil]
    omega

theorem StateOk.space {t : Bool} {js : List Nat} {m : State} (h : StateOk B t js m) :
    m.space ≤ (2 * B + 1) * (m.d.frames + 1) := by
  have h₁ := h.d.space
  have h₂ := h.d.length
  have h₃ := h.len
  simp only [State.space, Nat.mul_add]
  omega

end Meevax.Secd
