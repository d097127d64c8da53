import Verif.Spec.DatumLabel

/-!
Objects with circular lists, for `write` and `read` with datum labels.

Independent of the model.
-/

namespace Meevax.Shared

/-- Two objects look the same however far they are followed: they unfold to the same tree.  This is what
`equal?` of R7RS tells apart. -/
def Similar (G : Heap Obj) (v : Obj) (G' : Heap Obj) (v' : Obj) : Prop :=
  ∃ f : Nat → Nat → Prop, Same G G' f v v' ∧ ∀ n n', f n n' → SameNode G G' f (G n) (G' n')

/-- Not a pair. -/
def NoPair (H : Heap Obj) (x : Obj) : Prop := ∀ n a d, x = .ref n → H n ≠ .pair a d

mutual

/-- Objects whose cycles are circular lists: the first pair of the list is on the cycle.  Every other descent
ends, or arrives at the first pair of a circular list that it is inside of; those are `S`. -/
inductive Ringed (H : Heap Obj) : List Nat → Obj → Prop where
  | nil (S : List Nat) : Ringed H S .nil
  | atom (S : List Nat) (a : Nat) : Ringed H S (.atom a)
  | string {S : List Nat} {n : Nat} {s : List Nat} (h : H n = .string s) : Ringed H S (.ref n)
  | vector {S : List Nat} {n : Nat} {es : List Obj} (h : H n = .vector es) (hs : Ringeds H S es) : Ringed H S (.ref n)
  | pair {S : List Nat} {n : Nat} {a d : Obj} (h : H n = .pair a d) (ha : Ringed H S a) (hd : Ends H S d) :
      Ringed H S (.ref n)
  | ring {S : List Nat} {n : Nat} (h : Ring H (n :: S) n n) : Ringed H S (.ref n)
  | again {S : List Nat} {n : Nat} (hn : n ∈ S) : Ringed H S (.ref n)

/-- The rest of a list that ends. -/
inductive Ends (H : Heap Obj) : List Nat → Obj → Prop where
  | last {S : List Nat} {x : Obj} (hx : NoPair H x) (h : Ringed H S x) : Ends H S x
  | pair {S : List Nat} {n : Nat} {a d : Obj} (h : H n = .pair a d) (ha : Ringed H S a) (hd : Ends H S d) :
      Ends H S (.ref n)

/-- A circular list, from the pair `n` on; its first pair is `root`. -/
inductive Ring (H : Heap Obj) : List Nat → Nat → Nat → Prop where
  | last {S : List Nat} {root n : Nat} {a : Obj} (h : H n = .pair a (.ref root)) (ha : Ringed H S a) : Ring H S root n
  | step {S : List Nat} {root n m : Nat} {a : Obj} (h : H n = .pair a (.ref m)) (hm : m ≠ root) (ha : Ringed H S a)
      (hs : Ring H S root m) : Ring H S root n

inductive Ringeds (H : Heap Obj) : List Nat → List Obj → Prop where
  | nil (S : List Nat) : Ringeds H S []
  | cons {S : List Nat} {e : Obj} {es : List Obj} (h : Ringed H S e) (hs : Ringeds H S es) : Ringeds H S (e :: es)

end

mutual

/-- Objects as above whose circular lists are not inside one another.  The first pairs of the circular lists
are listed, in the order in which they occur. -/
inductive Simple (H : Heap Obj) : Obj → List Nat → Prop where
  | nil : Simple H .nil []
  | atom (a : Nat) : Simple H (.atom a) []
  | string {n : Nat} {s : List Nat} (h : H n = .string s) : Simple H (.ref n) []
  | vector {n : Nat} {es : List Obj} {rs : List Nat} (h : H n = .vector es) (hs : Simples H es rs) : Simple H (.ref n) rs
  | pair {n : Nat} {a d : Obj} {rs qs : List Nat} (h : H n = .pair a d) (ha : Simple H a rs) (hd : SimpleEnds H d qs) :
      Simple H (.ref n) (rs ++ qs)
  | ring {n : Nat} (h : SimpleRing H n n) : Simple H (.ref n) [n]

inductive SimpleEnds (H : Heap Obj) : Obj → List Nat → Prop where
  | last {x : Obj} {rs : List Nat} (hx : NoPair H x) (h : Simple H x rs) : SimpleEnds H x rs
  | pair {n : Nat} {a d : Obj} {rs qs : List Nat} (h : H n = .pair a d) (ha : Simple H a rs) (hd : SimpleEnds H d qs) :
      SimpleEnds H (.ref n) (rs ++ qs)

inductive SimpleRing (H : Heap Obj) : Nat → Nat → Prop where
  | last {root n : Nat} {a : Obj} (h : H n = .pair a (.ref root)) (ha : Simple H a []) : SimpleRing H root n
  | step {root n m : Nat} {a : Obj} (h : H n = .pair a (.ref m)) (hm : m ≠ root) (ha : Simple H a [])
      (hs : SimpleRing H root m) : SimpleRing H root n

inductive Simples (H : Heap Obj) : List Obj → List Nat → Prop where
  | nil : Simples H [] []
  | cons {e : Obj} {es : List Obj} {rs qs : List Nat} (h : Simple H e rs) (hs : Simples H es qs) :
      Simples H (e :: es) (rs ++ qs)

end

/-- All nodes are below `B`. -/
def Bounded (H : Heap Obj) (B : Nat) : Prop := ∀ n < B, ∀ m, .ref m ∈ (H n).parts → m < B

/-- Where a datum stands: not inside a label, inside of the label `k`, or inside a vector inside a label. -/
inductive Place where
  | top
  | inside (k : Nat)
  | plain
  deriving DecidableEq, Repr

def Place.elements : Place → Place
  | .top => .top
  | .inside _ => .plain
  | .plain => .plain

mutual

/-- Texts whose labels are not inside one another, and are used only as the rest of a list, inside of the
datum that they label and not in a vector in it. -/
inductive Flat : Place → Datum → Prop where
  | nil (p : Place) : Flat p .nil
  | atom (p : Place) (a : Nat) : Flat p (.atom a)
  | string (p : Place) (s : List Nat) : Flat p (.string s)
  | pair {p : Place} {a d : Datum} (ha : Flat p a) (hd : Flat p d) : Flat p (.pair a d)
  | back {k : Nat} {a : Datum} (ha : Flat (.inside k) a) : Flat (.inside k) (.pair a (.ref k))
  | vector {p : Place} {ds : List Datum} (hs : Flats p.elements ds) : Flat p (.vector ds)
  | label {k : Nat} {d : Datum} (h : Flat (.inside k) d) : Flat .top (.label k d)

inductive Flats : Place → List Datum → Prop where
  | nil (p : Place) : Flats p []
  | cons {p : Place} {d : Datum} {ds : List Datum} (h : Flat p d) (hs : Flats p ds) : Flats p (d :: ds)

end

end Meevax.Shared
