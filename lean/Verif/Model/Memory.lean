import Verif.Model.Base

/-
  Blocks of memory: `memory_allocate`, `memory_reallocate` and `memory_free`, common/memory.h,
  and the objects of libcdata, libfvalue and libbfio, which are not part of the repository and are
  counted as one block each.
-/

namespace Olecf

/-- The heap.  A block is named by the number of the request that was granted; `asked` is the
  number of requests so far, `grant n` tells whether request `n` is granted (any request may be
  refused), `live` are the blocks in use.  `bad` is set for good when a block is freed or used that
  is not in use. -/
structure Heap where
  grant : Nat → Bool
  asked : Nat
  live : List Nat
  bad : Bool

/-- A step of a program that allocates and that has a state `σ` of its own: the outcome, and the
  state and the heap afterwards, which are kept by failures as well. -/
def Mem (σ α : Type) := σ → Heap → Res α × σ × Heap

namespace Mem

/-- Sequencing: a failure ends the program, the state and the heap stay as they are. -/
def bind (m : Mem σ α) (k : α → Mem σ β) : Mem σ β := fun s h =>
  match m s h with
  | (.ok a, s, h) => k a s h
  | (.err, s, h) => (.err, s, h)
  | (.ub, s, h) => (.ub, s, h)
  | (.hang, s, h) => (.hang, s, h)

instance : Monad (Mem σ) where
  pure a := fun s h => (.ok a, s, h)
  bind := Mem.bind

/-- A step that neither allocates nor frees. -/
def lift (m : σ → Res α × σ) : Mem σ α := fun s h => ((m s).1, (m s).2, h)

/-- A step that only has an outcome. -/
def of (r : Res α) : Mem σ α := fun s h => (r, s, h)

/-- `return( -1 )`. -/
def fail : Mem σ α := of .err

/-- `memory_allocate`, common/memory.h, with `goto on_error` if it returns `NULL`. -/
def alloc : Mem σ Nat := fun s h =>
  if h.grant h.asked then
    (.ok h.asked, s, { h with asked := h.asked + 1, live := h.asked :: h.live })
  else (.err, s, { h with asked := h.asked + 1 })

/-- A request that makes no block of its own: an object of libcdata that grows, or any other step
  outside of the repository that can fail. -/
def ask : Mem σ Unit := fun s h =>
  (if h.grant h.asked then .ok () else .err, s, { h with asked := h.asked + 1 })

/-- `memory_free`. -/
def release (b : Nat) : Mem σ Unit := fun s h =>
  if b ∈ h.live then (.ok (), s, { h with live := h.live.erase b })
  else (.ok (), s, { h with bad := true })

/-- `if( x != NULL ) { memory_free( x ); }`. -/
def releaseOpt : Option Nat → Mem σ Unit
  | some b => release b
  | none => pure ()

/-- The access to a field of the structure in a block. -/
def use (b : Nat) : Mem σ Unit := fun s h =>
  if b ∈ h.live then (.ok (), s, h) else (.ok (), s, { h with bad := true })

/-- `memory_reallocate` of a block, or of `NULL`: the old block goes if it succeeds. -/
def realloc (old : Option Nat) : Mem σ Nat := do
  let b ← alloc
  releaseOpt old
  pure b

/-- `on_error`: what a failure of `m` runs into before the function returns -1. -/
def onError (m : Mem σ α) (cleanup : Mem σ Unit) : Mem σ α := fun s h =>
  match m s h with
  | (.err, s, h) => bind cleanup (fun _ => fail) s h
  | r => r

/-- The return value of a call as a value: `none` is -1. -/
def attempt (m : Mem σ α) : Mem σ (Option α) := fun s h =>
  match m s h with
  | (.ok a, s, h) => (.ok (some a), s, h)
  | (.err, s, h) => (.ok none, s, h)
  | (.ub, s, h) => (.ub, s, h)
  | (.hang, s, h) => (.hang, s, h)

/-- A loop over a list. -/
def forEach (f : α → Mem σ Unit) : List α → Mem σ Unit
  | [] => pure ()
  | a :: rest => do
    f a
    forEach f rest

end Mem
end Olecf
