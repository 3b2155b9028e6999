import Verif.Model.Numpy

/-!
# Index expressions with an array

NumPy's rule for an index expression with one index array (or mask) and integers: the integers count as arrays. If the integers and the
array are next to each other, the axis of the array is where it is in the expression; otherwise it becomes the first
axis of the result. For expressions without an ellipsis. As in `Model/Numpy` this states what is assumed of NumPy.
-/

namespace Stempy.Numpy

/-- Integers and arrays. -/
def Item.advanced : Item → Bool
  | .int _ => true
  | .ints _ => true
  | .mask _ _ => true
  | _ => false

/-- There is an array, and the integers and arrays are not next to each other. -/
def separated (items : List Item) : Bool :=
  items.any Item.isArray &&
    ((items.dropWhile fun x => !x.advanced).dropWhile Item.advanced).any Item.advanced

/-- Number of axes of the result before that of the array: one for every slice. -/
def axesBefore (items : List Item) : Nat :=
  ((items.takeWhile fun x => !x.isArray).filter fun x => !x.advanced).length

/-- `np.moveaxis(x, k, 0)` of a selection. -/
def moveToFront (k : Nat) (s : Sel) : Sel :=
  let n := s.shape.getD k 0
  let outer := prod (s.shape.take k)
  let inner := prod (s.shape.drop (k + 1))
  ⟨n :: (s.shape.take k ++ s.shape.drop (k + 1)),
    (List.range n).flatMap fun i => (List.range outer).flatMap fun o => (List.range inner).map fun j =>
      s.idx.getD ((o * n + i) * inner + j) 0⟩

/-- `a[items]` for expressions without an ellipsis and with at most one array. -/
def indexArray {α : Type} (a : NArray α) (items : List Item) : Outcome (NArray α) := do
  let s ← select a.shape items
  let s := if separated items then moveToFront (axesBefore items) s else s
  let l ← gather a.flat s.idx
  .ok ⟨s.shape, l⟩

/-- As `select`, also with two one-dimensional arrays for two consecutive axes: they are broadcast against each other and select pairwise,
with one axis in the result. Other expressions with more than one array are not modelled. -/
def selectPairs (shape : List Nat) : List Item → Outcome Sel
  | [] => .ok ⟨shape, List.range (prod shape)⟩
  | x :: items =>
    match items, shape with
    | y :: rest, n :: m :: s =>
      if x.isArray && y.isArray && x.ndim == 1 && y.ndim == 1 then do
        let (a, _) ← selectItem [n] x
        let (b, _) ← selectItem [m] y
        let l ← broadcast a.idx b.idx
        let r ← select s rest
        .ok (Sel.product ⟨[l.length], l.map fun p => p.1 * m + p.2⟩ r (prod s))
      else do
        let (a, k) ← selectItem shape x
        let b ← selectPairs (shape.drop k) items
        .ok (a.product b (prod (shape.drop k)))
    | _, _ => do
      let (a, k) ← selectItem shape x
      let b ← selectPairs (shape.drop k) items
      .ok (a.product b (prod (shape.drop k)))

/-- `a[items]` for expressions without an ellipsis and with at most one array, or two one-dimensional arrays next to each other. -/
def indexPairs {α : Type} (a : NArray α) (items : List Item) : Outcome (NArray α) := do
  let s ← selectPairs a.shape items
  let s := if separated items then moveToFront (axesBefore items) s else s
  let l ← gather a.flat s.idx
  .ok ⟨s.shape, l⟩

end Stempy.Numpy
