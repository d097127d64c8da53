import Verif.Model.Number

/-
library/srfi-151.ss. `arithmetic-shift` is `bit-shift`, `integer-length` is `bit-width` (L63, L65):
`arithmeticShift`, `bitWidth`. Vectors (`bits->vector`, `vector->bits`) go through lists and are not
modelled apart from them.
-/

namespace Meevax.Number

/-- `(- x)` (src/kernel/boot.cpp L210). -/
def negate (x : Num) : Outcome Num := minus [x]

/-- `bitwise-nand` (srfi-151.ss L71-L72). -/
def bitwiseNand (i j : Num) : Outcome Num := do bitwiseNot (← bitwiseAnd [i, j])
/-- `bitwise-nor` (srfi-151.ss L74-L75). -/
def bitwiseNor (i j : Num) : Outcome Num := do bitwiseNot (← bitwiseIor [i, j])
/-- `bitwise-andc1` (srfi-151.ss L77-L78). -/
def bitwiseAndc1 (i j : Num) : Outcome Num := do bitwiseAnd [← bitwiseNot i, j]
/-- `bitwise-andc2` (srfi-151.ss L80-L81). -/
def bitwiseAndc2 (i j : Num) : Outcome Num := do bitwiseAnd [i, ← bitwiseNot j]
/-- `bitwise-orc1` (srfi-151.ss L83-L84). -/
def bitwiseOrc1 (i j : Num) : Outcome Num := do bitwiseIor [← bitwiseNot i, j]
/-- `bitwise-orc2` (srfi-151.ss L86-L87). -/
def bitwiseOrc2 (i j : Num) : Outcome Num := do bitwiseIor [i, ← bitwiseNot j]

/-- The loop of `bitwise-eqv` (srfi-151.ss L90-L94). -/
def eqvLoop (ans : Num) : List Num → Outcome Num
  | [] => .value ans
  | x :: xs => do eqvLoop (← bitwiseNot (← bitwiseXor [ans, x])) xs

/-- `bitwise-eqv` (srfi-151.ss L89-L94). -/
def bitwiseEqv (args : List Num) : Outcome Num := eqvLoop (.small (-1)) args

/-- `mask` (srfi-151.ss L96-L97). -/
def mask (start finish : Num) : Outcome Num := do
  bitwiseNot (← arithmeticShift (.small (-1)) (← minus [finish, start]))

/-- `bit-set?` (srfi-151.ss L99-L100). -/
def bitSet (index n : Num) : Outcome Bool := do
  pure (!isZero (← bitwiseAnd [← arithmeticShift (.small 1) index, n]))

/-- `any-bit-set?` (srfi-151.ss L102-L103). -/
def anyBitSet (test n : Num) : Outcome Bool := do pure (!isZero (← bitwiseAnd [test, n]))

/-- `every-bit-set?` (srfi-151.ss L105-L106). -/
def everyBitSet (test n : Num) : Outcome Bool := do pure (numEq [test, ← bitwiseAnd [test, n]])

/-- `bit-field` (srfi-151.ss L108-L110). -/
def bitField (n start finish : Num) : Outcome Num := do
  bitwiseAnd [← mask start finish, ← arithmeticShift n (← negate start)]

/-- `bit-field-any?` (srfi-151.ss L112-L114). -/
def bitFieldAny (n start finish : Num) : Outcome Bool := do
  pure (!isZero (← bitwiseAnd [← arithmeticShift n (← negate start), ← mask start finish]))

/-- `eqv?` on exact integers: `exact_integer_equals` (comparator.hpp L29-L32, number.cpp L504-L507).
It is not called with ratios here. -/
def eqvIntegers : Num → Num → Bool
  | .ratio _, _ => false
  | _, .ratio _ => false
  | x, y => equals x y

/-- `bit-field-every?` (srfi-151.ss L116-L118). -/
def bitFieldEvery (n start finish : Num) : Outcome Bool := do
  let m ← mask start finish
  pure (eqvIntegers m (← bitwiseAnd [← arithmeticShift n (← negate start), m]))

/-- `bit-field-replace` (srfi-151.ss L126-L129). -/
def bitFieldReplace (n newfield start finish : Num) : Outcome Num := do
  let m ← mask start finish
  bitwiseIor [← bitwiseAnd [n, ← bitwiseNot (← arithmeticShift m start)],
    ← arithmeticShift (← bitwiseAnd [newfield, m]) start]

/-- `bit-field-clear` (srfi-151.ss L120-L121). -/
def bitFieldClear (n start finish : Num) : Outcome Num := bitFieldReplace n (.small 0) start finish

/-- `bit-field-set` (srfi-151.ss L123-L124). -/
def bitFieldSet (n start finish : Num) : Outcome Num := bitFieldReplace n (.small (-1)) start finish

/-- `bitwise-if` (srfi-151.ss L214-L216). -/
def bitwiseIf (m n0 n1 : Num) : Outcome Num := do
  bitwiseIor [← bitwiseAnd [m, n0], ← bitwiseAnd [← bitwiseNot m, n1]]

/-- `bit-field-replace-same` (srfi-151.ss L131-L132). -/
def bitFieldReplaceSame (target source start finish : Num) : Outcome Num := do
  bitwiseIf (← arithmeticShift (← mask start finish) start) source target

/-- `first-set-bit` (srfi-151.ss L134-L135). -/
def firstSetBit (i : Num) : Outcome Num := do
  minus [← bitCount (← bitwiseXor [i, ← minus [i, .small 1]]), .small 1]

/-- `bit-field-rotate` (srfi-151.ss L160-L168). -/
def bitFieldRotate (n count start finish : Num) : Outcome Num := do
  let width ← minus [finish, start]
  let count ← modulo count width
  let m ← bitwiseNot (← arithmeticShift (.small (-1)) width)
  let zn ← bitwiseAnd [m, ← arithmeticShift n (← negate start)]
  bitwiseIor
    [← arithmeticShift
        (← bitwiseIor [← bitwiseAnd [m, ← arithmeticShift zn count],
          ← arithmeticShift zn (← minus [count, width])])
        start,
     ← bitwiseAnd [← bitwiseNot (← arithmeticShift m start), n]]

/-- The loop of `bit-reverse` (srfi-151.ss L171-L182), cut off after `fuel` rounds. -/
def reverseLoop : Nat → Num → Num → Num → Outcome Num
  | 0, _, _, _ => .undefined
  | fuel + 1, m, k, rvs =>
    if isNegative k then .value rvs
    else do
      reverseLoop fuel (← arithmeticShift m (.small (-1))) (← plus [.small (-1), k])
        (← bitwiseIor [← arithmeticShift rvs (.small 1), ← bitwiseAnd [.small 1, m]])

/-- `bit-reverse` (srfi-151.ss L170-L182). The loop ends after as many rounds as `k` says. -/
def bitReverse (k n : Num) : Outcome Num := do
  let m ← if isNegative n then bitwiseNot n else pure n
  let k' ← plus [.small (-1), k]
  let rvs ← reverseLoop (magnitude k + 2) m k' (.small 0)
  if isNegative n then bitwiseNot rvs else pure rvs

/-- `bit-field-reverse` (srfi-151.ss L184-L189). -/
def bitFieldReverse (n start finish : Num) : Outcome Num := do
  let width ← minus [finish, start]
  let m ← bitwiseNot (← arithmeticShift (.small (-1)) width)
  let zn ← bitwiseAnd [m, ← arithmeticShift n (← negate start)]
  bitwiseIor [← arithmeticShift (← bitReverse width zn) start,
    ← bitwiseAnd [← bitwiseNot (← arithmeticShift m start), n]]

/-- `copy-bit` (srfi-151.ss L191-L194). -/
def copyBit (index target : Num) (bool : Bool) : Outcome Num :=
  if bool then do bitwiseIor [target, ← arithmeticShift (.small 1) index]
  else do bitwiseAnd [target, ← bitwiseNot (← arithmeticShift (.small 1) index)]

/-- The first loop of `bits->list` (srfi-151.ss L198-L200), cut off after `fuel` rounds. -/
def bitsLoop : Nat → Num → List Bool → Outcome (List Bool)
  | 0, _, _ => .undefined
  | fuel + 1, k, lst =>
    if numLe [k, .small 0] then .value lst.reverse
    else do bitsLoop fuel (← arithmeticShift k (.small (-1))) ((← isOdd k) :: lst)

/-- `(bits->list k)` (srfi-151.ss L196-L200). -/
def bitsToList (k : Num) : Outcome (List Bool) := bitsLoop (magnitude k + 1) k []

/-- The second loop of `bits->list` (srfi-151.ss L201-L204), cut off after `fuel` rounds. -/
def bitsLoopLen : Nat → Num → Num → List Bool → Outcome (List Bool)
  | 0, _, _, _ => .undefined
  | fuel + 1, idx, k, lst =>
    if isNegative idx then .value lst.reverse
    else do
      bitsLoopLen fuel (← plus [.small (-1), idx]) (← arithmeticShift k (.small (-1)))
        ((← isOdd k) :: lst)

/-- `(bits->list k len)` (srfi-151.ss L196-L204). -/
def bitsToListLen (k len : Num) : Outcome (List Bool) := do
  bitsLoopLen (magnitude len + 2) (← plus [.small (-1), len]) k []

/-- The loop of `list->bits` (srfi-151.ss L207-L209). -/
def listLoop (acc : Num) : List Bool → Outcome Num
  | [] => .value acc
  | b :: bs => do listLoop (← plus [acc, acc, if b then .small 1 else .small 0]) bs

/-- `list->bits` (srfi-151.ss L206-L209), and `bits` (L211-L212). -/
def listToBits (bools : List Bool) : Outcome Num := listLoop (.small 0) bools.reverse

/-- `(bits->vector i)` (srfi-151.ss L226-L228). -/
def bitsToVector (i : Num) : Outcome (Array Bool) := do pure (← bitsToList i).toArray

/-- `(bits->vector i len)` (srfi-151.ss L226-L229). -/
def bitsToVectorLen (i len : Num) : Outcome (Array Bool) := do pure (← bitsToListLen i len).toArray

/-- `vector->bits` (srfi-151.ss L231-L232). -/
def vectorToBits (v : Array Bool) : Outcome Num := listToBits v.toList

/-- `bit-swap` (srfi-151.ss L234-L237). -/
def bitSwap (n1 n2 i : Num) : Outcome Num := do
  let b1 ← bitSet n1 i
  let b2 ← bitSet n2 i
  copyBit n2 (← copyBit n1 i b2) b1

/-- The loop of `bitwise-fold` (srfi-151.ss L241-L244), cut off after `fuel` rounds; `proc` is any
procedure that returns. -/
def foldLoop {σ : Type} (proc : Bool → σ → σ) (i len : Num) : Nat → Num → σ → Outcome σ
  | 0, _, _ => .undefined
  | fuel + 1, n, r =>
    if numEq [n, len] then .value r
    else do
      let b ← bitSet n i
      foldLoop proc i len fuel (← plus [n, .small 1]) (proc b r)

/-- `bitwise-fold` (srfi-151.ss L239-L244). -/
def bitwiseFold {σ : Type} (proc : Bool → σ → σ) (seed : σ) (i : Num) : Outcome σ := do
  let len ← bitWidth i
  foldLoop proc i len (magnitude len + 1) (.small 0) seed

/-- `bitwise-unfold` (srfi-151.ss L253-L259), cut off after `fuel` rounds. -/
def unfoldLoop {σ : Type} (stop : σ → Bool) (mapper : σ → Bool) (successor : σ → σ) :
    Nat → Num → Num → σ → Outcome Num
  | 0, _, _, _ => .undefined
  | fuel + 1, n, result, state =>
    if stop state then .value result
    else do
      unfoldLoop stop mapper successor fuel (← plus [n, .small 1]) (← copyBit n result (mapper state))
        (successor state)

/-- One call of the procedure `make-bitwise-generator` returns (srfi-151.ss L261-L265): the bit, and
the new value of `i`. -/
def generatorStep (i : Num) : Outcome (Bool × Num) := do
  let b ← bitSet (.small 0) i
  pure (b, ← arithmeticShift i (.small (-1)))

/-- `count` calls of it, one after the other (library/srfi-151.ss L261). -/
def generate : Nat → Num → Outcome (List Bool)
  | 0, _ => .value []
  | count + 1, i => do
    let (b, i') ← generatorStep i
    pure (b :: (← generate count i'))

/-- The loop of `bitwise-for-each` (srfi-151.ss L246-L251), cut off after `fuel` rounds: the bits the
procedure is called with, in order. -/
def forEachLoop (i len : Num) : Nat → Num → Outcome (List Bool)
  | 0, _ => .undefined
  | fuel + 1, n =>
    if numLt [n, len] then do
      let b ← bitSet n i
      pure (b :: (← forEachLoop i len fuel (← plus [n, .small 1])))
    else .value []

/-- `bitwise-for-each` (srfi-151.ss L246-L251). -/
def bitwiseForEach (i : Num) : Outcome (List Bool) := do
  let len ← bitWidth i
  forEachLoop i len (magnitude len + 1) (.small 0)

end Meevax.Number
