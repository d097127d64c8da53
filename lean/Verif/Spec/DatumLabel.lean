import Mathlib.Data.List.Forall2

/-!
Datum labels (R7RS 2.4, 7.1.2): texts for objects with shared parts and cycles, and what they denote.

Independent of the model.  An object is the empty list, an atom (a number, a symbol, a character, ...) or a
reference to a node of the heap: a pair, a vector or a string.
-/

namespace Meevax.Shared

/-- Objects. -/
inductive Obj where
  | nil
  | atom (a : Nat)
  | ref (n : Nat)
  deriving DecidableEq, Repr

/-- Nodes of the heap. -/
inductive Node (α : Type) where
  | pair (a d : α)
  | vector (es : List α)
  | string (s : List Nat)
  deriving DecidableEq, Repr

abbrev Heap (α : Type) := Nat → Node α

/-- The tokens of a text: parentheses, `#(`, a space, ` . `, a literal, a string literal, `#k=`, `#k#`. -/
inductive Tok where
  | lp
  | vec
  | rp
  | space
  | dot
  | atom (a : Nat)
  | string (s : List Nat)
  | label (k : Nat)
  | ref (k : Nat)
  deriving DecidableEq, Repr

/-- The datum that a text shows. -/
inductive Datum where
  | nil
  | atom (a : Nat)
  | string (s : List Nat)
  | pair (a d : Datum)
  | vector (ds : List Datum)
  | label (k : Nat) (d : Datum)
  | ref (k : Nat)

mutual

/-- `ts` is a text for the datum. -/
inductive Text : List Tok → Datum → Prop where
  | nil : Text [.lp, .rp] .nil
  | atom (a : Nat) : Text [.atom a] (.atom a)
  | string (s : List Nat) : Text [.string s] (.string s)
  | pair {ts us : List Tok} {a d : Datum} (ha : Text ts a) (hd : Tail us d) : Text (.lp :: (ts ++ us)) (.pair a d)
  | vector {ts : List Tok} {ds : List Datum} (h : Elements ts ds) : Text (.vec :: (ts ++ [.rp])) (.vector ds)
  | label {ts : List Tok} {d : Datum} (k : Nat) (h : Text ts d) : Text (.label k :: ts) (.label k d)
  | ref (k : Nat) : Text [.ref k] (.ref k)

/-- The rest of a list. -/
inductive Tail : List Tok → Datum → Prop where
  | nil : Tail [.rp] .nil
  | pair {ts us : List Tok} {a d : Datum} (ha : Text ts a) (hd : Tail us d) :
      Tail (.space :: (ts ++ us)) (.pair a d)
  | dot {ts : List Tok} {d : Datum} (h : Text ts d) : Tail (.dot :: (ts ++ [.rp])) d

/-- The elements of a vector. -/
inductive Elements : List Tok → List Datum → Prop where
  | nil : Elements [] []
  | one {ts : List Tok} {d : Datum} (h : Text ts d) : Elements ts [d]
  | cons {ts us : List Tok} {d e : Datum} {ds : List Datum} (h : Text ts d) (hs : Elements us (e :: ds)) :
      Elements (ts ++ .space :: us) (d :: e :: ds)

end

/-- Empty vectors and strings have no parts and, for this purpose, no identity. -/
def Node.isEmpty {α : Type} : Node α → Bool
  | .vector [] => true
  | .string [] => true
  | _ => false

mutual

/-- The datum shows the object `v` of the heap `G`, if the labels stand for the objects `L` gives.  The
nodes that are shown in full are listed, in the order of the text. -/
inductive Den (G : Heap Obj) (L : Nat → Option Obj) : Datum → Obj → List Nat → Prop where
  | nil : Den G L .nil .nil []
  | atom (a : Nat) : Den G L (.atom a) (.atom a) []
  | noString {n : Nat} (h : G n = .string []) : Den G L (.string []) (.ref n) []
  | noVector {n : Nat} (h : G n = .vector []) : Den G L (.vector []) (.ref n) []
  | string {n : Nat} {s : List Nat} (h : G n = .string s) (hs : s ≠ []) : Den G L (.string s) (.ref n) [n]
  | pair {n : Nat} {a d : Datum} {x y : Obj} {ns ms : List Nat} (h : G n = .pair x y) (ha : Den G L a x ns)
      (hd : Den G L d y ms) : Den G L (.pair a d) (.ref n) (n :: (ns ++ ms))
  | vector {n : Nat} {ds : List Datum} {xs : List Obj} {ns : List Nat} (h : G n = .vector xs) (hx : xs ≠ [])
      (hs : Dens G L ds xs ns) : Den G L (.vector ds) (.ref n) (n :: ns)
  | label {k : Nat} {d : Datum} {v : Obj} {ns : List Nat} (hk : L k = some v) (h : Den G L d v ns) :
      Den G L (.label k d) v ns
  | ref {k : Nat} {v : Obj} (hk : L k = some v) : Den G L (.ref k) v []

inductive Dens (G : Heap Obj) (L : Nat → Option Obj) : List Datum → List Obj → List Nat → Prop where
  | nil : Dens G L [] [] []
  | cons {d : Datum} {ds : List Datum} {v : Obj} {vs : List Obj} {ns ms : List Nat} (h : Den G L d v ns)
      (hs : Dens G L ds vs ms) : Dens G L (d :: ds) (v :: vs) (ns ++ ms)

end

/-- A label belongs to a pair, a vector or a string. -/
def Datum.labelled : Datum → Bool
  | .pair _ _ => true
  | .vector ds => ¬ ds.isEmpty
  | .string s => ¬ s.isEmpty
  | _ => false

mutual

/-- Labels are declared once, before they are used.  `ks` are the labels declared before the datum; the
result is those declared after it. -/
inductive Scoped : List Nat → Datum → List Nat → Prop where
  | nil (ks : List Nat) : Scoped ks .nil ks
  | atom (ks : List Nat) (a : Nat) : Scoped ks (.atom a) ks
  | string (ks : List Nat) (s : List Nat) : Scoped ks (.string s) ks
  | pair {ks ls ms : List Nat} {a d : Datum} (ha : Scoped ks a ls) (hd : Scoped ls d ms) :
      Scoped ks (.pair a d) ms
  | vector {ks ls : List Nat} {ds : List Datum} (h : Scopeds ks ds ls) : Scoped ks (.vector ds) ls
  | label {k : Nat} {ks ls : List Nat} {d : Datum} (hk : k ∉ ks) (hd : d.labelled) (h : Scoped (k :: ks) d ls) :
      Scoped ks (.label k d) ls
  | ref {k : Nat} {ks : List Nat} (hk : k ∈ ks) : Scoped ks (.ref k) ks

inductive Scopeds : List Nat → List Datum → List Nat → Prop where
  | nil (ks : List Nat) : Scopeds ks [] ks
  | cons {ks ls ms : List Nat} {d : Datum} {ds : List Datum} (h : Scoped ks d ls) (hs : Scopeds ls ds ms) :
      Scopeds ks (d :: ds) ms

end

/-- The datum denotes the object: its labels are in order, and all that it shows in full is different. -/
def Denotes (G : Heap Obj) (D : Datum) (v : Obj) (ns : List Nat) : Prop :=
  ∃ L ks, Scoped [] D ks ∧ Den G L D v ns ∧ ns.Nodup

/-- The parts of a node. -/
def Node.parts {α : Type} : Node α → List α
  | .pair a d => [a, d]
  | .vector es => es
  | .string _ => []

/-- The nodes, other than empty ones, that an object consists of. -/
inductive Reach (G : Heap Obj) : Obj → Nat → Prop where
  | here {n : Nat} (h : (G n).isEmpty = false) : Reach G (.ref n) n
  | part {n m : Nat} {v : Obj} (h : Reach G v n) (hm : .ref m ∈ (G n).parts) (he : (G m).isEmpty = false) :
      Reach G v m

/-- The node occurs more than once in the object: it is the object itself and a part, twice a part of the
same node, or a part of two nodes. -/
def Twice (G : Heap Obj) (v : Obj) (n : Nat) : Prop :=
  (v = .ref n ∧ ∃ p, Reach G v p ∧ .ref n ∈ (G p).parts) ∨
  (∃ p, Reach G v p ∧ 2 ≤ (G p).parts.count (.ref n)) ∨
  ∃ p q, p ≠ q ∧ Reach G v p ∧ Reach G v q ∧ .ref n ∈ (G p).parts ∧ .ref n ∈ (G q).parts

/-- Two objects are the same up to the names of nodes: `f` matches their nodes. -/
inductive Same (G G' : Heap Obj) (f : Nat → Nat → Prop) : Obj → Obj → Prop where
  | nil : Same G G' f .nil .nil
  | atom (a : Nat) : Same G G' f (.atom a) (.atom a)
  | empty {n n' : Nat} (h : (G n).isEmpty = true) (he : G' n' = G n) : Same G G' f (.ref n) (.ref n')
  | node {n n' : Nat} (h : f n n') : Same G G' f (.ref n) (.ref n')

/-- Two nodes have the same parts. -/
inductive SameNode (G G' : Heap Obj) (f : Nat → Nat → Prop) : Node Obj → Node Obj → Prop where
  | pair {a d a' d' : Obj} (ha : Same G G' f a a') (hd : Same G G' f d d') :
      SameNode G G' f (.pair a d) (.pair a' d')
  | vector {es es' : List Obj} (h : List.Forall₂ (Same G G' f) es es') : SameNode G G' f (.vector es) (.vector es')
  | string (s : List Nat) : SameNode G G' f (.string s) (.string s)

/-- The graphs of two objects are isomorphic: the nodes of one are in one to one correspondence with the
nodes of the other, and corresponding nodes have corresponding parts. -/
def Isomorphic (G : Heap Obj) (v : Obj) (G' : Heap Obj) (v' : Obj) : Prop :=
  ∃ f : Nat → Nat → Prop,
    Same G G' f v v' ∧
    (∀ n n', f n n' → SameNode G G' f (G n) (G' n')) ∧
    (∀ n n₁ n₂, f n n₁ → f n n₂ → n₁ = n₂) ∧
    (∀ n₁ n₂ n', f n₁ n' → f n₂ n' → n₁ = n₂) ∧
    (∀ n, Reach G v n → ∃ n', f n n') ∧
    (∀ n', Reach G' v' n' → ∃ n, f n n')

end Meevax.Shared
