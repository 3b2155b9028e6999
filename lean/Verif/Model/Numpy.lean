import Verif.Basic

/-!
# The parts of NumPy used by stempy

NumPy is external; this file states the behaviour that is assumed of it. Arrays are in row-major order. Values are unbounded
(overflow of the element type is not modelled); exceptions have the name of the Python exception.
-/

namespace Stempy.Numpy

/-- `np.prod(shape)` -/
def prod : List Nat → Nat
  | [] => 1
  | n :: s => n * prod s

/-- An array: `reshape` changes `shape` only. -/
structure NArray (α : Type) where
  shape : List Nat
  flat : List α
  deriving DecidableEq

/-- `a[idx]` with an array of indexes. -/
def gather {α : Type} (l : List α) (idx : List Nat) : Outcome (List α) :=
  idx.mapM fun i =>
    match l[i]? with
    | some a => .ok a
    | none => .throw "IndexError"

/-- `a[idx] = vals` with an array of indexes: one after the other, the last one counts. -/
def scatter {α : Type} (l : List α) (idx : List Nat) (vals : List α) : Outcome (List α) :=
  (idx.zip vals).foldlM (fun l x => if x.1 < l.length then .ok (l.set x.1 x.2) else .throw "IndexError") l

/-- `a[idx] += 1`: values are read before any is written. -/
def increment (l : List Nat) (idx : List Nat) : Outcome (List Nat) := do
  let vals ← gather l idx
  scatter l idx (vals.map (· + 1))

/-- Insertion into a strictly increasing list. -/
def insertSorted (x : Nat) : List Nat → List Nat
  | [] => [x]
  | y :: l => if x < y then x :: y :: l else if x = y then y :: l else y :: insertSorted x l

/-- `np.unique(l)` -/
def unique (l : List Nat) : List Nat := l.foldr insertSorted []

/-- `np.unique(l, return_counts=True)[1]` -/
def counts (l : List Nat) : List Nat := (unique l).map fun x => l.count x

/-- `np.concatenate` of a list of arrays. -/
def concatenate (l : List (List Nat)) : Outcome (List Nat) :=
  if l.isEmpty then .throw "ValueError" else .ok l.flatten

/-- `np.max` resp. `np.min` of an array. -/
def maxOf (l : List Nat) : Outcome Nat :=
  match l with
  | [] => .throw "ValueError"
  | x :: l => .ok (l.foldl max x)

def minOf (l : List Nat) : Outcome Nat :=
  match l with
  | [] => .throw "ValueError"
  | x :: l => .ok (l.foldl min x)

/-- `np.unravel_index(i, shape)` for an index in the array. -/
def unravel : List Nat → Nat → List Nat
  | [], _ => []
  | _ :: s, i => (i / prod s) :: unravel s (i % prod s)

/-! ### Indexing -/

/-- An element of an index expression. -/
inductive Item where
  | slice (start stop step : Option Int)
  | int (i : Int)
  | ellipsis
  /-- an array of indexes -/
  | ints (l : List Int)
  /-- a boolean array (of the given shape, which has at least one axis) -/
  | mask (shape : List Nat) (bits : List Bool)
  deriving DecidableEq

/-- The slice `:`. -/
def Item.all : Item := .slice none none none

/-- CPython's `PySlice_AdjustIndices`, one bound. -/
def adjust (n : Nat) (negative : Bool) (x : Int) : Int :=
  let x := if x < 0 then x + n else x
  if x < 0 then (if negative then -1 else 0)
  else if x ≥ n then (if negative then n - 1 else n)
  else x

/-- Start, step and number of the indexes of a slice of an axis of length `n`. -/
def sliceRange (n : Nat) (start stop step : Option Int) : Outcome (Int × Int × Nat) :=
  let st := step.getD 1
  if st = 0 then .throw "ValueError"
  else
    let neg := decide (st < 0)
    let a := (start.map (adjust n neg)).getD (if neg then n - 1 else 0)
    let b := (stop.map (adjust n neg)).getD (if neg then -1 else n)
    let len : Int :=
      if neg then (if b < a then (a - b - 1) / (-st) + 1 else 0)
      else (if a < b then (b - a - 1) / st + 1 else 0)
    .ok (a, st, len.toNat)

/-- The indexes selected by a slice. -/
def sliceIndexes (n : Nat) (start stop step : Option Int) : Outcome (List Nat) := do
  let (a, st, len) ← sliceRange n start stop step
  .ok ((List.range len).map fun (k : Nat) => (a + k * st).toNat)

/-- An integer index; negative ones count from the end. -/
def intIndex (n : Nat) (i : Int) : Outcome Nat :=
  let j := if i < 0 then i + n else i
  if 0 ≤ j ∧ j < n then .ok j.toNat else .throw "IndexError"

/-- What is selected of an array: the shape of the result and, in order, the elements of the (flat) source. -/
structure Sel where
  shape : List Nat
  idx : List Nat
  deriving DecidableEq

/-- The result has the axes of both selections; `m` is the number of elements of the second array. -/
def Sel.product (a b : Sel) (m : Nat) : Sel :=
  ⟨a.shape ++ b.shape, a.idx.flatMap fun i => b.idx.map fun j => i * m + j⟩

/-- Selection on the first axes of an array by one element of an index expression: the selection and the number of axes
it uses. -/
def selectItem (shape : List Nat) : Item → Outcome (Sel × Nat)
  | .slice a b c =>
    match shape with
    | [] => .throw "IndexError"
    | n :: _ => do
      let l ← sliceIndexes n a b c
      .ok (⟨[l.length], l⟩, 1)
  | .int i =>
    match shape with
    | [] => .throw "IndexError"
    | n :: _ => do
      let j ← intIndex n i
      .ok (⟨[], [j]⟩, 1)
  | .ellipsis => .ok (⟨shape, List.range (prod shape)⟩, shape.length)
  | .ints l =>
    match shape with
    | [] => .throw "IndexError"
    | n :: _ => do
      let l ← l.mapM (intIndex n)
      .ok (⟨[l.length], l⟩, 1)
  | .mask s bits =>
    if s ≠ [] ∧ s = shape.take s.length ∧ bits.length = prod s then
      let l := (List.range (prod s)).filter fun i => bits.getD i false
      .ok (⟨[l.length], l⟩, s.length)
    else .throw "IndexError"

/-- An index expression without an ellipsis (other than as the last element): one element after the other; axes that are not
mentioned are taken completely. Assumed: at most one element of the expression is an array. -/
def select (shape : List Nat) : List Item → Outcome Sel
  | [] => .ok ⟨shape, List.range (prod shape)⟩
  | it :: items => do
    let (a, k) ← selectItem shape it
    let b ← select (shape.drop k) items
    .ok (a.product b (prod (shape.drop k)))

/-- Number of axes used by an element. -/
def axes : Item → Nat
  | .ellipsis => 0
  | .mask s _ => s.length
  | _ => 1

/-- An ellipsis stands for `:` for all axes that are not mentioned. -/
def expandEllipsis (ndim : Nat) (items : List Item) : List Item :=
  match items.idxOf? .ellipsis with
  | none => items
  | some i =>
    items.take i ++ List.replicate (ndim - (items.map axes).sum) .all ++ items.drop (i + 1)

/-- The element is an array ("advanced indexing"). -/
def Item.isArray : Item → Bool
  | .ints _ => true
  | .mask _ _ => true
  | _ => false

/-- Number of dimensions of an array in an index expression. -/
def Item.ndim : Item → Nat
  | .ints _ => 1
  | .mask s _ => s.length
  | _ => 0

/-- Two index arrays are broadcast against each other. -/
def broadcast (a b : List Nat) : Outcome (List (Nat × Nat)) :=
  if a.length = b.length then .ok (a.zip b)
  else if a.length = 1 then .ok (b.map fun y => (a.headD 0, y))
  else if b.length = 1 then .ok (a.map fun x => (x, b.headD 0))
  else .throw "IndexError"

/-- Selection by an index expression on an array of the given shape. With two (one-dimensional) arrays for the two axes of a
two-dimensional array the elements are selected pairwise; other expressions with more than one array are not modelled. -/
def selection (shape : List Nat) (items : List Item) : Outcome Sel :=
  match items, shape with
  | [x, y], [n, m] =>
    if x.isArray && y.isArray && x.ndim == 1 && y.ndim == 1 then do
      let (a, _) ← selectItem [n] x
      let (b, _) ← selectItem [m] y
      let l ← broadcast a.idx b.idx
      .ok ⟨[l.length], l.map fun p => p.1 * m + p.2⟩
    else select shape (expandEllipsis shape.length items)
  | _, _ => select shape (expandEllipsis shape.length items)

/-- `a[items]` of an array. -/
def index {α : Type} (a : NArray α) (items : List Item) : Outcome (NArray α) := do
  let s ← selection a.shape items
  let l ← gather a.flat s.idx
  .ok ⟨s.shape, l⟩

/-! ### Reductions -/

/-- For each element of the result of a reduction (in order) the elements of the source that are combined. The flags say
which axes are reduced. -/
def groups : List Nat → List Bool → List (List Nat)
  | [], _ => [[0]]
  | n :: s, f =>
    let rest := groups s f.tail
    if f.headD false then rest.map fun g => (List.range n).flatMap fun i => g.map (i * prod s + ·)
    else (List.range n).flatMap fun i => rest.map fun g => g.map (i * prod s + ·)

/-- Shape of the result of a reduction. -/
def reducedShape : List Nat → List Bool → List Nat
  | [], _ => []
  | n :: s, f => if f.headD false then reducedShape s f.tail else n :: reducedShape s f.tail

/-- `a.op(axis=axes)` where `op` combines the values of a group. -/
def reduce {α β : Type} [Inhabited α] (op : List α → Outcome β) (a : NArray α) (axes : List Int) : Outcome (NArray β) := do
  let axes ← axes.mapM fun x => (intIndex a.shape.length x)
  if axes.Nodup then
    let flags := (List.range a.shape.length).map fun i => axes.contains i
    let l ← (groups a.shape flags).mapM fun g => op (g.map fun i => a.flat.getD i default)
    .ok ⟨reducedShape a.shape flags, l⟩
  else .throw "ValueError"

end Stempy.Numpy
