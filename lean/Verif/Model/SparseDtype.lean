import Verif.Model.SparseArray

/-!
# python/stempy/io/sparse_array.py: the element type

`Model/SparseArray` has unbounded values. Here the results have an element type: unsigned integers of `bits` bits
(`np.uint8`, ..., the default `np.uint32`) or floating point numbers with `digits` binary digits (`np.float32`: 24, the default
of `mean`). Values are natural numbers; storing one in an array converts it to the type. Overflow of floating point numbers
(2 ^ 128) is not modelled. Assumed of NumPy: conversion of integers is modulo 2 ^ bits, and `r[i] += n` computes in a type
which can hold the sum and converts the result (array with array index: in the type of the array, which is the same).
-/

namespace Stempy.Sparse
open Numpy

inductive DType where
  | uint (bits : Nat)
  | float (digits : Nat)
  deriving DecidableEq

/-- The floating point number with `p` digits next to `n`, the one with an even significand if there are two. -/
def roundTo (p n : Nat) : Nat :=
  if n < 2 ^ p then n
  else
    let e := n.log2 + 1 - p
    let q := n / 2 ^ e
    let r := n % 2 ^ e
    if 2 * r < 2 ^ e ∨ (2 * r = 2 ^ e ∧ q % 2 = 0) then q * 2 ^ e else (q + 1) * 2 ^ e

/-- Conversion to the element type. -/
def DType.store : DType → Nat → Nat
  | .uint b, n => n % 2 ^ b
  | .float p, n => roundTo p n

/-- `np.iinfo(dtype).max` -/
def DType.max : DType → Outcome Nat
  | .uint b => .ok (2 ^ b - 1)
  | .float _ => .throw "ValueError"

/-- `ret[idx] += 1` -/
def incrementT (t : DType) (l idx : List Nat) : Outcome (List Nat) := do
  let vals ← gather l idx
  scatter l idx (vals.map fun v => t.store (v + 1))

/-- sparse_array.py 504-510; 1007-1011 is the same for one scan position. -/
def sumScanT (t : DType) (a : SparseArray) : Outcome (NArray Nat) := do
  let r ← a.data.foldlM (fun r frames => frames.foldlM (incrementT t) r) (List.replicate (prod a.frameShape) 0)
  .ok ⟨a.frameShape, r⟩

/-- sparse_array.py 512-517 -/
def sumFrameT (t : DType) (a : SparseArray) : Outcome (NArray Nat) :=
  perPosition a 0 fun frames => .ok (frames.foldl (fun s frame => t.store (s + frame.length)) 0)

/-- sparse_array.py 411-417 -/
def maxScanT (t : DType) (a : SparseArray) : Outcome (NArray Nat) := do
  let r ← a.data.foldlM (fun r frames => do
    let c ← concatenate frames
    let old ← gather r (unique c)
    scatter r (unique c) ((List.zipWith Max.max old (counts c)).map t.store)) (List.replicate (prod a.frameShape) 0)
  .ok ⟨a.frameShape, r⟩

/-- sparse_array.py 419-425 -/
def maxFrameT (t : DType) (a : SparseArray) : Outcome (NArray Nat) :=
  perPosition a 0 fun frames => do
    let c ← concatenate frames
    let m ← maxOf (counts c)
    .ok (t.store m)

/-- sparse_array.py 454-463 -/
def minScanT (t : DType) (a : SparseArray) : Outcome (NArray Nat) := do
  let m ← t.max
  let r ← a.data.foldlM (fun r frames => do
    let c ← concatenate frames
    let expanded ← scatter (List.replicate (prod a.frameShape) 0) (unique c) ((counts c).map t.store)
    .ok (List.zipWith Min.min r expanded)) (List.replicate (prod a.frameShape) m)
  .ok ⟨a.frameShape, r⟩

/-- sparse_array.py 465-476 -/
def minFrameT (t : DType) (a : SparseArray) : Outcome (NArray Nat) := do
  let m ← t.max
  perPosition a m fun frames => do
    let c ← concatenate frames
    if (counts c).length < prod a.frameShape then .ok 0
    else do
      let x ← minOf (counts c)
      .ok (t.store x)

/-- sparse_array.py 901-929, 1007-1011: all of the dense array, in the type. -/
def denseT (t : DType) (a : SparseArray) : Outcome (NArray Nat) := do
  let outs ← a.data.mapM fun frames => frames.foldlM (incrementT t) (List.replicate (prod a.frameShape) 0)
  .ok ⟨a.shape, outs.flatten⟩

end Stempy.Sparse
