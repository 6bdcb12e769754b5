/-
  Base vocabulary of the model: outcomes, bytes, fixed-width arithmetic and the
  device (libbfio handle) the library reads from.
-/

namespace Olecf

/-- Outcome of a C function.
  * `ok a`  : the function returned its success value (1, 0 or a byte count),
  * `err`   : the function returned -1,
  * `ub`    : the execution performed an operation with undefined behaviour
              (access outside a buffer, signed overflow, division by zero, ...),
  * `hang`  : the execution did not leave a loop within the loop's iteration budget.
  Here every `memory_allocate` succeeds; Model/Memory.lean and the models on it let every single
  allocation fail. -/
inductive Res (α : Type u) where
  | ok (a : α)
  | err
  | ub
  | hang
  deriving Repr, DecidableEq

namespace Res

/-- Sequencing: any outcome other than success is passed on unchanged, which is
  what the `if( f( ... ) != 1 ) { ...; return( -1 ); }` idiom does. -/
def bind (x : Res α) (f : α → Res β) : Res β :=
  match x with
  | ok a => f a
  | err => err
  | ub => ub
  | hang => hang

instance : Monad Res where
  pure := Res.ok
  bind := Res.bind

@[simp] theorem pure_eq (a : α) : (pure a : Res α) = ok a := rfl
@[simp] theorem ok_bind (a : α) (f : α → Res β) : (ok a >>= f) = f a := rfl
@[simp] theorem err_bind (f : α → Res β) : ((err : Res α) >>= f) = err := rfl
@[simp] theorem ub_bind (f : α → Res β) : ((ub : Res α) >>= f) = ub := rfl
@[simp] theorem hang_bind (f : α → Res β) : ((hang : Res α) >>= f) = hang := rfl

/-- The outcome is one the C standard defines and the call returned. -/
def Defined : Res α → Prop
  | ok _ => True
  | err => True
  | ub => False
  | hang => False

end Res

/-- A byte buffer. -/
abbrev Bytes := List UInt8

/-- `LIBOLECF_SECTOR_IDENTIFIER_END_OF_CHAIN`, libolecf/libolecf_definitions.h.in:
  the marker that ends a chain of sectors. -/
def EOC : Nat := 0xfffffffe

/-- `LIBOLECF_SECTOR_IDENTIFIER_UNUSED`, libolecf/libolecf_definitions.h.in. -/
def UNUSED : Nat := 0xffffffff

/-- `INT_MAX` for the 32-bit `int` of every supported platform. -/
def INT_MAX : Nat := 0x7fffffff

/-- `SSIZE_MAX` on a 64-bit platform. -/
def SSIZE_MAX : Nat := 0x7fffffffffffffff

/-- `MEMORY_MAXIMUM_ALLOCATION_SIZE`, common/memory.h:45-46. -/
def MAX_ALLOC : Nat := 128 * 1024 * 1024

/-- Conversion of an unsigned value to `int` (two's complement, modulo 2^32). -/
def toInt32 (n : Nat) : Int :=
  if n % 2 ^ 32 < 2 ^ 31 then ((n % 2 ^ 32 : Nat) : Int)
  else ((n % 2 ^ 32 : Nat) : Int) - 2 ^ 32

/-- `LIBOLECF_ENDIAN_LITTLE` / `LIBOLECF_ENDIAN_BIG`.  The C code keeps the byte
  order in a `uint8_t`; only these two values are ever stored by
  `libolecf_file_header_read_data` (libolecf_file_header.c:243-265), and no reader
  runs before the header was read. -/
inductive Endian where
  | little
  | big
  deriving Repr, DecidableEq

/-- Read one byte of a buffer.  Reading outside of the buffer is undefined. -/
def rdByte (b : Bytes) (o : Nat) : Res Nat :=
  match b[o]? with
  | some x => .ok x.toNat
  | none => .ub

/-- `byte_stream_copy_to_uint16_{little,big}_endian`, common/byte_stream.h:54-62.
  The shift/or chain on disjoint bytes is written as a positional sum. -/
def rd16 (e : Endian) (b : Bytes) (o : Nat) : Res Nat := do
  let b0 ← rdByte b o
  let b1 ← rdByte b (o + 1)
  match e with
  | .little => pure (b0 + 256 * b1)
  | .big => pure (b1 + 256 * b0)

/-- `byte_stream_copy_to_uint32_{little,big}_endian`, common/byte_stream.h:78-94. -/
def rd32 (e : Endian) (b : Bytes) (o : Nat) : Res Nat := do
  let b0 ← rdByte b o
  let b1 ← rdByte b (o + 1)
  let b2 ← rdByte b (o + 2)
  let b3 ← rdByte b (o + 3)
  match e with
  | .little => pure (b0 + 256 * (b1 + 256 * (b2 + 256 * b3)))
  | .big => pure (b3 + 256 * (b2 + 256 * (b1 + 256 * b0)))

/-- `byte_stream_copy_to_uint64_{little,big}_endian`, common/byte_stream.h:122-155,
  as two 32-bit halves. -/
def rd64 (e : Endian) (b : Bytes) (o : Nat) : Res Nat := do
  let lo ← rd32 e b o
  let hi ← rd32 e b (o + 4)
  match e with
  | .little => pure (lo + 2 ^ 32 * hi)
  | .big => pure (hi + 2 ^ 32 * lo)

/-- `memory_copy` of `n` bytes out of a buffer at offset `o`; undefined when the
  source range leaves the buffer. -/
def rdBytes (b : Bytes) (o n : Nat) : Res Bytes :=
  if o + n ≤ b.length then .ok ((b.drop o).take n) else .ub

/-- The device behind a `libbfio_handle_t`: `read offset size` is what
  `libbfio_handle_read_buffer_at_offset` delivers (`none`: it returned -1).  The
  contract assumed of libbfio is only that it delivers at most `size` bytes. -/
structure Dev where
  read : Nat → Nat → Option Bytes
  bound : ∀ o n b, read o n = some b → b.length ≤ n

/-- `read_count = libbfio_handle_read_buffer_at_offset( ... )` followed by
  `if( read_count != (ssize_t) size )`: the form of every read of the library, see
  e.g. libolecf_io_handle.c:376-395. -/
def Dev.get (d : Dev) (o n : Nat) : Option Bytes :=
  match d.read o n with
  | some b => if b.length = n then some b else none
  | none => none

/-- The device of a file with content `f`: a read returns the bytes of the file that
  lie in the range. -/
def Dev.ofBytes (f : Bytes) : Dev where
  read o n := some ((f.drop o).take n)
  bound := by
    intro o n b h
    cases h
    simp only [List.length_take]
    omega

/-- A computation that reads from a device: the list of the reads it performed, in
  order, and its outcome. -/
structure Out (α : Type u) where
  reads : List (Nat × Nat)
  res : Res α
  deriving Repr, DecidableEq

namespace Out

/-- No read performed. -/
def of (r : Res α) : Out α := ⟨[], r⟩

/-- Prefix an execution with one more read. -/
def cons (r : Nat × Nat) (o : Out α) : Out α := ⟨r :: o.reads, o.res⟩

@[simp] theorem of_reads (r : Res α) : (of r).reads = [] := rfl
@[simp] theorem of_res (r : Res α) : (of r).res = r := rfl
@[simp] theorem cons_reads (r) (o : Out α) : (o.cons r).reads = r :: o.reads := rfl
@[simp] theorem cons_res (r) (o : Out α) : (o.cons r).res = o.res := rfl

end Out

/-- `( sector_identifier + 1 ) * sector_size` with `sector_identifier` an `uint32_t`
  and `sector_size` a `size_t` (e.g. libolecf_io_handle.c:364): the increment wraps
  at 2^32, the product is formed in 64 bits (and cannot wrap there for the sector
  sizes the header can declare). -/
def sectorOffset (id ss : Nat) : Nat := ((id + 1) % 2 ^ 32) * ss

/-- The fields of `libolecf_io_handle_t` (libolecf_io_handle.h:43-80) that the readers
  use.  `abort` is written by `libolecf_file_signal_abort` and never read; it is kept
  in the file model. -/
structure IoHandle where
  majorVersion : Nat
  minorVersion : Nat
  sectorSize : Nat
  shortSectorSize : Nat
  minStreamSize : Nat
  byteOrder : Endian
  shortStreamStart : Nat
  codepage : Int
  deriving Repr, DecidableEq

end Olecf
