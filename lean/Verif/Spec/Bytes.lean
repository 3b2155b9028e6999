/-!
Little-endian encoding of unsigned integers, used to state what a writer puts into a file.
-/

namespace Stempy.Spec

/-- `v` as `k` bytes, least significant first. -/
def encodeLE : Nat → Nat → List UInt8
  | 0, _ => []
  | k + 1, v => UInt8.ofNat (v % 256) :: encodeLE k (v / 256)

/-- An array of `k`-byte values. -/
def encodeArray (k : Nat) (vs : List Nat) : List UInt8 := vs.flatMap (encodeLE k)

end Stempy.Spec
