import Verif.Model.Base

/-
  Specification vocabulary: numbers in byte strings and their serialisation.
  Written without the model's readers (`rd16`, `rd32`, ...).
-/

namespace Olecf.Spec

/-- The byte of `d` at position `o` as a number (0 outside; every use is guarded by a
  length condition). -/
def byteAt (d : Bytes) (o : Nat) : Nat := (d.getD o 0).toNat

/-- Two bytes at `o`, least significant first (little) or last (big). -/
def u16At (e : Endian) (d : Bytes) (o : Nat) : Nat :=
  match e with
  | .little => byteAt d o + 2 ^ 8 * byteAt d (o + 1)
  | .big => 2 ^ 8 * byteAt d o + byteAt d (o + 1)

/-- Four bytes at `o`. -/
def u32At (e : Endian) (d : Bytes) (o : Nat) : Nat :=
  match e with
  | .little =>
    byteAt d o + 2 ^ 8 * byteAt d (o + 1) + 2 ^ 16 * byteAt d (o + 2) + 2 ^ 24 * byteAt d (o + 3)
  | .big =>
    2 ^ 24 * byteAt d o + 2 ^ 16 * byteAt d (o + 1) + 2 ^ 8 * byteAt d (o + 2) + byteAt d (o + 3)

/-- Eight bytes at `o`. -/
def u64At (e : Endian) (d : Bytes) (o : Nat) : Nat :=
  match e with
  | .little => u32At e d o + 2 ^ 32 * u32At e d (o + 4)
  | .big => 2 ^ 32 * u32At e d o + u32At e d (o + 4)

/-- The 32-bit words of a sector, in order; a trailing part of fewer than four bytes
  does not count. -/
def words (e : Endian) (d : Bytes) : List Nat :=
  (List.range (d.length / 4)).map fun i => u32At e d (4 * i)

/-- Serialisation of a 16-bit number. -/
def enc16 (e : Endian) (v : Nat) : Bytes :=
  let b0 := UInt8.ofNat v
  let b1 := UInt8.ofNat (v / 2 ^ 8)
  match e with
  | .little => [b0, b1]
  | .big => [b1, b0]

/-- Serialisation of a 32-bit number. -/
def enc32 (e : Endian) (v : Nat) : Bytes :=
  let b0 := UInt8.ofNat v
  let b1 := UInt8.ofNat (v / 2 ^ 8)
  let b2 := UInt8.ofNat (v / 2 ^ 16)
  let b3 := UInt8.ofNat (v / 2 ^ 24)
  match e with
  | .little => [b0, b1, b2, b3]
  | .big => [b3, b2, b1, b0]

/-- Serialisation of a 64-bit number. -/
def enc64 (e : Endian) (v : Nat) : Bytes :=
  match e with
  | .little => enc32 e (v % 2 ^ 32) ++ enc32 e (v / 2 ^ 32)
  | .big => enc32 e (v / 2 ^ 32) ++ enc32 e (v % 2 ^ 32)

/-- Serialisation of a sequence of 32-bit numbers. -/
def enc32s (e : Endian) (vs : List Nat) : Bytes := vs.flatMap (enc32 e)

/-- The bytes `[o, o + n)` of a file, if the file has them all. -/
def slice (f : Bytes) (o n : Nat) : Option Bytes :=
  if o + n ≤ f.length then some ((f.drop o).take n) else none

end Olecf.Spec
