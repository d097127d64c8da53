import Verif.Lemmas.Types

/-
C94: the disjointness of types, the accessors of pairs, boxes and error objects, and the kinds of ports.
-/

namespace Meevax.Types

/-- C94. No object satisfies two of `boolean?`, `bytevector?`, `char?`, `eof-object?`, `null?`, `number?`,
`pair?`, `port?`, `procedure?`, `string?`, `symbol?`, `vector?`, `u16vector?`, …, `f64vector?`, `box?`,
`error-object?`, `transformer?` and `syntactic-closure?`. -/
theorem C94_disjoint (h : Heap) (x : Word) :
    ((disjointPredicates.map (fun p => p h x)).filter id).length ≤ 1 := by
  rw [disjointPredicates_eq]
  exact onClass_le _

/-- C94. The type of an object never changes: what a predicate says of an object that is in use it says as
well after `cons`, `box`, `error`, opening a port, `set-car!`, `set-cdr!` and `set-box!`. -/
theorem C94_stable {p : Heap → Word → Bool} (hp : p ∈ disjointPredicates ++ finerPredicates) {h h' : Heap}
    {z : Word} (hz : InUse h z)
    (step : (∃ c : Cell, h' = (make h c).2) ∨ (∃ m is, h' = (errorObject h m is).2) ∨
      ∃ x y, setCar h x y = .value h' ∨ setCdr h x y = .value h' ∨ setBox h x y = .value h') :
    p h' z = p h z := by
  apply predicate_congr hp
  rcases step with ⟨c, rfl⟩ | ⟨m, is, rfl⟩ | ⟨x, y, hs⟩
  · exact type_of_extends (make_extends h c) hz
  · obtain ⟨h2, h3, -⟩ := operandList_spec is h
    have e := make_extends (operandList h is).2
      { class_ := .error, first := m, second := (operandList h is).1 }
    show type (make (operandList h is).2 _).2 z = _
    rw [type_of_extends e fun a ha => Nat.lt_of_lt_of_le (hz a ha) h2]
    cases z with
    | ref a => simp only [type]; rw [h3 a (hz a rfl)]
    | _ => rfl
  · rcases hs with hs | hs | hs
    · cases x <;> simp only [setCar, Outcome.value.injEq, reduceCtorEq] at hs
      subst hs; exact type_setFirst _ _ _ _
    · cases x <;> simp only [setCdr, Outcome.value.injEq, reduceCtorEq] at hs
      subst hs; exact type_setSecond _ _ _ _
    · cases x <;> simp only [setBox, reduceCtorEq] at hs
      split at hs
      · injection hs with hs; subst hs; exact type_setFirst _ _ _ _
      · simp at hs

/-- C94. `cons` gives a new pair of the two objects and leaves all others; `set-car!` and `set-cdr!` of a
pair change that field and nothing else. -/
theorem C94_pairs (h : Heap) (x y : Word) :
    (Extends h (cons h x y).2 (cons h x y).1 ∧ isPair (cons h x y).2 (cons h x y).1 = true ∧
      car (cons h x y).2 (cons h x y).1 = .value x ∧ cdr (cons h x y).2 (cons h x y).1 = .value y) ∧
    (isPair h x = true → ∃ h', setCar h x y = .value h' ∧ OnlyFirst h h' x y) ∧
    (isPair h x = true → ∃ h', setCdr h x y = .value h' ∧ OnlySecond h h' x y) := by
  refine ⟨⟨make_extends h _, ?_, ?_, ?_⟩, fun hp => ?_, fun hp => ?_⟩
  · exact isPair_iff.2 ⟨h.next, rfl, by rw [cons, make_cell]⟩
  · show Outcome.value ((make h _).2.cell h.next).first = _
    rw [make_cell]
  · show Outcome.value ((make h _).2.cell h.next).second = _
    rw [make_cell]
  · obtain ⟨p, rfl, -⟩ := isPair_iff.1 hp
    exact ⟨_, rfl, onlyFirst_setFirst h p y⟩
  · obtain ⟨p, rfl, -⟩ := isPair_iff.1 hp
    exact ⟨_, rfl, onlySecond_setSecond h p y⟩

/-- C94. The accessor whose name has the letters `w` between `c` and `r` gives the object the letters lead
to, read from right to left, if all the steps are from pairs. -/
theorem C94_accessors {h : Heap} {w : List Letter} {f : Heap → Word → Outcome Word}
    (hf : (w, f) ∈ accessors) {x y : Word} (hw : Follows h w x y) : f h x = .value y := by
  have ca : ∀ {v : List Letter} {z : Word}, Follows h (.a :: v) x z → ∀ {g : Heap → Word → Outcome Word},
      (∀ u, Follows h v x u → g h x = .value u) → compose car g h x = .value z := by
    intro v z hz g hg
    cases hz with
    | a hv _ => exact compose_value (hg _ hv) rfl
  have cd : ∀ {v : List Letter} {z : Word}, Follows h (.d :: v) x z → ∀ {g : Heap → Word → Outcome Word},
      (∀ u, Follows h v x u → g h x = .value u) → compose cdr g h x = .value z := by
    intro v z hz g hg
    cases hz with
    | d hv _ => exact compose_value (hg _ hv) rfl
  have a : ∀ u, Follows h [.a] x u → car h x = .value u := by
    intro u hu
    cases hu with
    | a hv _ => cases hv; rfl
  have d : ∀ u, Follows h [.d] x u → cdr h x = .value u := by
    intro u hu
    cases hu with
    | d hv _ => cases hv; rfl
  have aa : ∀ u, Follows h [.a, .a] x u → caar h x = .value u := fun u hu => ca hu a
  have ad : ∀ u, Follows h [.a, .d] x u → cadr h x = .value u := fun u hu => ca hu d
  have da : ∀ u, Follows h [.d, .a] x u → cdar h x = .value u := fun u hu => cd hu a
  have dd : ∀ u, Follows h [.d, .d] x u → cddr h x = .value u := fun u hu => cd hu d
  have aaa : ∀ u, Follows h [.a, .a, .a] x u → caaar h x = .value u := fun u hu => ca hu aa
  have aad : ∀ u, Follows h [.a, .a, .d] x u → caadr h x = .value u := fun u hu => ca hu ad
  have ada : ∀ u, Follows h [.a, .d, .a] x u → cadar h x = .value u := fun u hu => ca hu da
  have add : ∀ u, Follows h [.a, .d, .d] x u → caddr h x = .value u := fun u hu => ca hu dd
  have daa : ∀ u, Follows h [.d, .a, .a] x u → cdaar h x = .value u := fun u hu => cd hu aa
  have dad : ∀ u, Follows h [.d, .a, .d] x u → cdadr h x = .value u := fun u hu => cd hu ad
  have dda : ∀ u, Follows h [.d, .d, .a] x u → cddar h x = .value u := fun u hu => cd hu da
  have ddd : ∀ u, Follows h [.d, .d, .d] x u → cdddr h x = .value u := fun u hu => cd hu dd
  simp only [accessors, List.mem_cons, Prod.mk.injEq, List.not_mem_nil, or_false] at hf
  rcases hf with ⟨rfl, rfl⟩ | ⟨rfl, rfl⟩ | ⟨rfl, rfl⟩ | ⟨rfl, rfl⟩ | ⟨rfl, rfl⟩ | ⟨rfl, rfl⟩ | ⟨rfl, rfl⟩ |
    ⟨rfl, rfl⟩ | ⟨rfl, rfl⟩ | ⟨rfl, rfl⟩ | ⟨rfl, rfl⟩ | ⟨rfl, rfl⟩ | ⟨rfl, rfl⟩ | ⟨rfl, rfl⟩ | ⟨rfl, rfl⟩ |
    ⟨rfl, rfl⟩ | ⟨rfl, rfl⟩ | ⟨rfl, rfl⟩ | ⟨rfl, rfl⟩ | ⟨rfl, rfl⟩ | ⟨rfl, rfl⟩ | ⟨rfl, rfl⟩ | ⟨rfl, rfl⟩ |
    ⟨rfl, rfl⟩ | ⟨rfl, rfl⟩ | ⟨rfl, rfl⟩ | ⟨rfl, rfl⟩ | ⟨rfl, rfl⟩ | ⟨rfl, rfl⟩ | ⟨rfl, rfl⟩
  · exact a _ hw
  · exact d _ hw
  · exact aa _ hw
  · exact ad _ hw
  · exact da _ hw
  · exact dd _ hw
  · exact aaa _ hw
  · exact daa _ hw
  · exact aad _ hw
  · exact dad _ hw
  · exact ada _ hw
  · exact dda _ hw
  · exact add _ hw
  · exact ddd _ hw
  · exact ca hw aaa
  · exact cd hw aaa
  · exact ca hw aad
  · exact cd hw aad
  · exact ca hw ada
  · exact cd hw ada
  · exact ca hw add
  · exact cd hw add
  · exact ca hw daa
  · exact cd hw daa
  · exact ca hw dad
  · exact cd hw dad
  · exact ca hw dda
  · exact cd hw dda
  · exact ca hw ddd
  · exact cd hw ddd

/-- C94. There is an accessor for every name with one to four letters, and only one. -/
theorem C94_accessor_names (w : List Letter) (h1 : 1 ≤ w.length) (h4 : w.length ≤ 4) :
    (accessors.map (·.1)).count w = 1 := by
  match w, h1, h4 with
  | [a], _, _ => cases a <;> decide
  | [a, b], _, _ => cases a <;> cases b <;> decide
  | [a, b, c], _, _ => cases a <;> cases b <;> cases c <;> decide
  | [a, b, c, d], _, _ => cases a <;> cases b <;> cases c <;> cases d <;> decide

/-- C94. `(box x)` is a new box whose value is `x`; `set-box!` of a box changes its value and nothing else,
and is an error for everything that is not a box. -/
theorem C94_boxes (h : Heap) (x y : Word) :
    (Extends h (box h x).2 (box h x).1 ∧ isBox (box h x).2 (box h x).1 = true ∧
      unbox (box h x).2 (box h x).1 = .value x) ∧
    (isBox h x = true → ∃ h', setBox h x y = .value h' ∧ unbox h' x = .value y ∧ OnlyFirst h h' x y) ∧
    (isBox h x = false → setBox h x y = .error) := by
  refine ⟨⟨make_extends h _, ?_, ?_⟩, fun hb => ?_, fun hb => ?_⟩
  · show decide (((make h _).2.cell h.next).class_ = Class.box) = true
    rw [make_cell]; rfl
  · show Outcome.value ((make h _).2.cell h.next).first = _
    rw [make_cell]
  · cases x with
    | ref a =>
      have hc : (h.cell a).class_ = .box := of_decide_eq_true hb
      refine ⟨setFirst h a y, ?_, (onlyFirst_setFirst h a y).1, onlyFirst_setFirst h a y⟩
      simp only [setBox, hc]; rfl
    | _ => simp [isBox, is, type] at hb
  · cases x with
    | ref a =>
      have hc : (h.cell a).class_ ≠ .box := of_decide_eq_false hb
      have : castsTo (h.cell a).class_ .box = false := by
        revert hc
        generalize (h.cell a).class_ = c
        cases c with
        | homogeneousVector t => cases t <;> decide
        | _ => decide
      simp [setBox, this]
    | _ => rfl

/-- C94. `(error message irritant ...)` raises a new error object with that message and those irritants,
which is neither a read error nor a file error. -/
theorem C94_error_object (h : Heap) (message : Word) (irritants : List Word) :
    let r := errorObject h message irritants
    isErrorObject r.2 r.1 = true ∧ isReadError r.2 r.1 = false ∧ isFileError r.2 r.1 = false ∧
      errorObjectMessage r.2 r.1 = .value message ∧
      (∃ l, errorObjectIrritants r.2 r.1 = .value l ∧ ListOf r.2 l irritants) ∧
      (∀ a, a < h.next → r.1 ≠ .ref a ∧ r.2.cell a = h.cell a) := by
  obtain ⟨h2, h3, h4⟩ := operandList_spec irritants h
  have hc := make_cell (operandList h irritants).2
    { class_ := .error, first := message, second := (operandList h irritants).1 }
  have he := make_extends (operandList h irritants).2
    { class_ := .error, first := message, second := (operandList h irritants).1 }
  intro r
  replace hc : r.2.cell (operandList h irritants).2.next =
    { class_ := .error, first := message, second := (operandList h irritants).1 } := hc
  replace he : Extends (operandList h irritants).2 r.2 r.1 := he
  have hr : r.1 = .ref (operandList h irritants).2.next := rfl
  rw [hr]
  refine ⟨?_, ?_, ?_, ?_, ⟨(operandList h irritants).1, ?_, ?_⟩, fun a ha => ⟨?_, ?_⟩⟩
  · show castsTo (r.2.cell _).class_ _ = true
    rw [hc]; rfl
  · show decide ((r.2.cell _).class_ = _) = false
    rw [hc]; rfl
  · show decide ((r.2.cell _).class_ = _) = false
    rw [hc]; rfl
  · show Outcome.value (r.2.cell _).first = _
    rw [hc]
  · show Outcome.value (r.2.cell _).second = _
    rw [hc]
  · exact h4 _ fun a ha => he.2.2 a ha
  · intro e
    injection e with e
    omega
  · rw [he.2.2 a (Nat.lt_of_lt_of_le ha h2)]
    exact h3 a ha

/-- C94. The errors of the reader and of files are error objects: `error-object?` holds of them, just one of
`read-error?` and `file-error?` does, and the accessors give their message and irritants. -/
theorem C94_kernel_errors (h : Heap) (c : Class) (hc : c = .readError ∨ c = .fileError)
    (message irritants : Word) :
    let r := kernelError h c message irritants
    isErrorObject r.2 r.1 = true ∧ isReadError r.2 r.1 = decide (c = .readError) ∧
      isFileError r.2 r.1 = decide (c = .fileError) ∧ errorObjectMessage r.2 r.1 = .value message ∧
      errorObjectIrritants r.2 r.1 = .value irritants := by
  have hm := make_cell h { class_ := c, first := message, second := irritants }
  intro r
  replace hm : r.2.cell h.next = { class_ := c, first := message, second := irritants } := hm
  have hr : r.1 = .ref h.next := rfl
  rw [hr]
  refine ⟨?_, ?_, ?_, ?_, ?_⟩
  · show castsTo (r.2.cell _).class_ _ = true
    rw [hm]; rcases hc with rfl | rfl <;> rfl
  · show decide ((r.2.cell _).class_ = _) = _
    rw [hm]
  · show decide ((r.2.cell _).class_ = _) = _
    rw [hm]
  · show Outcome.value (r.2.cell _).first = _
    rw [hm]
  · show Outcome.value (r.2.cell _).second = _
    rw [hm]

/-- C94. Of a port, just one of `input-port?` and `output-port?` holds, and just one of `textual-port?` and
`binary-port?`, as the procedure that made it says. -/
theorem C94_port_kinds (h : Heap) (o : Opener) (b : Bool) :
    let r := openPort h o b
    isPort r.2 r.1 = true ∧ isInputPort r.2 r.1 = o.forInput ∧ isOutputPort r.2 r.1 = !o.forInput ∧
      isTextualPort r.2 r.1 = o.forText ∧ isBinaryPort r.2 r.1 = !o.forText ∧
      isOpen r.2 r.1 = .value b := by
  have hm := make_cell h { class_ := o.made, isOpen := b }
  intro r
  have hr : r.1 = .ref h.next := rfl
  rw [hr]
  simp only [isPort, isInputPort, isOutputPort, isTextualPort, isBinaryPort, isAlso, isOpen]
  have hm' : r.2.cell h.next = { class_ := o.made, isOpen := b } := hm
  rw [hm']
  refine ⟨?_, ?_, ?_, ?_, ?_, ?_⟩ <;> cases o <;> rfl

/-- C94. Only ports satisfy the finer predicates, and `open?` of anything else is an error. -/
theorem C94_only_ports {h : Heap} {x : Word} (hx : isPort h x = false) :
    isInputPort h x = false ∧ isOutputPort h x = false ∧ isTextualPort h x = false ∧
      isBinaryPort h x = false ∧ inputPortOpen h x = .error ∧ outputPortOpen h x = .error := by
  cases x with
  | ref a =>
    simp only [isPort, isInputPort, isOutputPort, isTextualPort, isBinaryPort, isAlso, inputPortOpen,
      outputPortOpen, isOpen] at hx ⊢
    have : castsTo (h.cell a).class_ .inputPort = false ∧ castsTo (h.cell a).class_ .outputPort = false ∧
        castsTo (h.cell a).class_ .textualPort = false ∧ castsTo (h.cell a).class_ .binaryPort = false := by
      revert hx
      generalize (h.cell a).class_ = c
      cases c with
      | homogeneousVector t => cases t <;> decide
      | _ => decide
    exact ⟨this.1, this.2.1, this.2.2.1, this.2.2.2, by simp [hx], by simp [hx]⟩
  | _ => exact ⟨rfl, rfl, rfl, rfl, rfl, rfl⟩

/-! What is not checked. -/

/-- A heap of cells of one kind for the counterexamples. -/
def exHeap (c : Cell) : Heap := ⟨fun _ => c, 1⟩

/-- C94. `car` of an object that is not a pair is not an error: of a string it is the empty list, of the
empty list undefined behaviour. -/
theorem C94_car_fails :
    (∃ h x, isString h x = true ∧ isPair h x = false ∧ car h x = .value .null) ∧
      ∃ h x, isNull h x = true ∧ car h x = .undefined :=
  ⟨⟨exHeap { class_ := .string }, .ref 0, by decide, by decide, rfl⟩,
    ⟨exHeap { class_ := .string }, .null, by decide, rfl⟩⟩

/-- C94. `(set-car! z 5)` for the number `z` = `1+2i` is not an error and changes the number. -/
theorem C94_set_car_fails :
    ∃ h h' x, isNumber h x = true ∧ isPair h x = false ∧ car h x = .value (.fix 1) ∧
      setCar h x (.fix 5) = .value h' ∧ isNumber h' x = true ∧ car h' x = .value (.fix 5) :=
  ⟨exHeap { class_ := .complex, first := .fix 1, second := .fix 2 },
    setFirst (exHeap { class_ := .complex, first := .fix 1, second := .fix 2 }) 0 (.fix 5), .ref 0,
    by decide, by decide, rfl, rfl, by decide, rfl⟩

/-- C94. `unbox` and `error-object-message` of a pair are not errors but its car. -/
theorem C94_unchecked_fails :
    ∃ h x, isPair h x = true ∧ isBox h x = false ∧ isErrorObject h x = false ∧
      unbox h x = .value (.fix 1) ∧ errorObjectMessage h x = .value (.fix 1) ∧
      errorObjectIrritants h x = .value (.fix 2) :=
  ⟨exHeap { class_ := .pair, first := .fix 1, second := .fix 2 }, .ref 0, by decide, by decide, by decide,
    rfl, rfl, rfl⟩

/-- C94. `input-port-open?` of an open output port is `#t`, and so is `output-port-open?` of an input port. -/
theorem C94_port_open_fails :
    (∃ h x, isInputPort h x = false ∧ isOutputPort h x = true ∧ inputPortOpen h x = .value true) ∧
      ∃ h x, isOutputPort h x = false ∧ isInputPort h x = true ∧ outputPortOpen h x = .value true :=
  ⟨⟨exHeap { class_ := .outputStringPort }, .ref 0, by decide, by decide, by decide⟩,
    ⟨exHeap { class_ := .inputStringPort }, .ref 0, by decide, by decide, by decide⟩⟩

/-- C94. `identifier->symbol` of a syntactic closure, that is of an identifier a macro has inserted, is
undefined behaviour, in every heap. -/
theorem C94_identifier_symbol_fails (h : Heap) :
    isIdentifier (makeSyntacticClosure h).2 (makeSyntacticClosure h).1 = true ∧
      identifierToSymbol (makeSyntacticClosure h).2 (makeSyntacticClosure h).1 = .undefined := by
  have hm := make_cell h { class_ := .syntacticClosure }
  constructor
  · show castsTo ((make h _).2.cell h.next).class_ _ = true
    rw [hm]; rfl
  · simp [makeSyntacticClosure, identifierToSymbol, is, type, make, cddr, compose, cdr]

/-! Concrete cases. -/

/-- A heap with the list `(1 2)`: pairs 0 and 1. -/
def exList : Heap :=
  ⟨fun a => if a = 0 then { class_ := .pair, first := .fix 1, second := .ref 1 }
    else { class_ := .pair, first := .fix 2 }, 2⟩

/-- `cadr` of `(1 2)` is `2`. -/
example : Follows exList [.a, .d] (.ref 0) (.fix 2) :=
  .a (h := exList) (p := 1) (.d (h := exList) (p := 0) (.here _) (by decide)) (by decide)

example : ([Letter.a, .d], cadr) ∈ accessors := by simp [accessors]

example : InUse exList (.ref 1) := by
  intro a ha
  injection ha with ha
  subst ha; decide

example : isPair exList (.ref 0) = true := by decide

example : isBox exList (.ref 0) = false ∧ isPort exList (.ref 0) = false := by decide

example : isBox (exHeap { class_ := .box }) (.ref 0) = true := by decide

end Meevax.Types
