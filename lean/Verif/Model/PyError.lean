import Verif.Model.Base

/-
  Model of the error functions of the Python bindings (pyolecf/pyolecf_error.c), built for Python 3.

  An object of the interpreter is a number.  Of an object, what `repr` gives for it is modelled.  Of the
  memory of the interpreter, the references that the bindings own are: every function of the C API of Python
  that gives a new reference adds one, Py_DecRef takes one away.  The formatting functions are not
  modelled: their result is a parameter.
-/

namespace Olecf

/-- What PyObject_Repr does with an object: it fails (the method raises), or it makes a string.  A string has an
  encoding in UTF-8 or none (lone surrogates). -/
inductive ReprResult where
  | failed
  | text (utf8 : Option Bytes)
  deriving Repr, DecidableEq

/-- A raised exception, as PyErr_Fetch gives it: the type, the value and the traceback, the latter two of which may be
  missing. -/
structure PyExc where
  type : Nat
  value : Option Nat
  traceback : Option Nat
  deriving Repr, DecidableEq

/-- The references that PyErr_Fetch passes to its caller. -/
def PyExc.refs (e : PyExc) : List Nat := e.type :: (e.value.toList ++ e.traceback.toList)

/-- What the bindings raise: the type of the exception and the message. -/
structure PyRaised where
  type : Nat
  message : Bytes
  deriving Repr, DecidableEq

/-- The state of the interpreter: the exception that is set, either one of Python code or one of the bindings; the
  references owned by the bindings; the next unused object. -/
structure PyErrState where
  set : Option (PyExc ⊕ PyRaised)
  owned : List Nat
  next : Nat
  deriving Repr, DecidableEq

/-- PyErr_Fetch: the exception is no longer set, its references are those of the caller.  An exception that the
  bindings raised is modelled with a type only. -/
def pyErrFetch (s : PyErrState) : Option PyExc × PyErrState :=
  match s.set with
  | none => (none, s)
  | some (.inl e) => (some e, { s with set := none, owned := s.owned ++ e.refs })
  | some (.inr r) => (some ⟨r.type, none, none⟩, { s with set := none, owned := s.owned ++ [r.type] })

/-- PyErr_Format: replaces the exception that is set. -/
def pyErrFormat (type : Nat) (message : Bytes) (s : PyErrState) : PyErrState :=
  { s with set := some (.inr ⟨type, message⟩) }

/-- A function that makes an object: the caller owns it. -/
def newObject (s : PyErrState) : Nat × PyErrState :=
  (s.next, { s with owned := s.owned ++ [s.next], next := s.next + 1 })

/-- Py_DecRef: releases one reference; nothing for the null pointer. -/
def releaseRef (o : Option Nat) (s : PyErrState) : PyErrState :=
  match o with
  | none => s
  | some o => { s with owned := s.owned.erase o }

/-- The exceptions that failing functions of the interpreter set: PyExc_ValueError, and those of PyObject_Repr and
  of PyUnicode_AsUTF8String. -/
structure PyTypes where
  valueError : Nat
  reprError : PyExc
  encodeError : PyExc

/-- "<NULL>", which PyObject_Repr gives for the null pointer. -/
def nullRepr : ReprResult := .text (some [60, 78, 85, 76, 76, 62])

/-- The bytes up to the first zero of a buffer; undefined if there is none. -/
def bufferString : Bytes → Res Bytes
  | [] => .ub
  | c :: rest => if c = 0 then .ok [] else
    match bufferString rest with
    | .ok s => .ok (c :: s)
    | r => r

/-- The string that PyBytes_AsString points to, as "%s" prints it: a zero follows the bytes of every bytes object. -/
def bytesAsString (b : Bytes) : Bytes := b.takeWhile (· ≠ 0)

/-- pyolecf_error.c:98-102 and 238-242 (PyOS_vsnprintf into 2048 bytes): of the formatted text at most 2047 bytes are
  kept.  The text has no zero byte. -/
def keptText (text : Bytes) : Bytes := text.take 2047

/-- pyolecf_error.c:116-123 and 256-263: a point at the end is removed. -/
def trimPoint (s : Bytes) : Bytes :=
  if s.length ≥ 1 ∧ s.getLast? = some 46 then s.dropLast else s

/-- " with error: " -/
def withError : Bytes := [32, 119, 105, 116, 104, 32, 101, 114, 114, 111, 114, 58, 32]

/-- pyolecf_error.c:124-144 and 264-284: the exception is fetched and its text made.  The result: the string of the
  exception if there is one, the string object and the bytes object.  PyUnicode_AsUTF8String of the null pointer
  is undefined: it reads the type of the object. -/
def fetchText (types : PyTypes) (repr : Nat → ReprResult) (s : PyErrState) :
    Res (Option Bytes × Option Nat × Option Nat) × PyErrState :=
  let (e, s) := pyErrFetch s
  let r := match e.bind (·.value) with
    | none => nullRepr
    | some o => repr o
  match r with
  | .failed => (.ub, { s with set := some (.inl types.reprError) })
  | .text utf8 =>
    let (string, s) := newObject s
    match utf8 with
    | none => (.ok (none, some string, none), { s with set := some (.inl types.encodeError) })
    | some b =>
      let (bytes, s) := newObject s
      (.ok (some (bytesAsString b), some string, some bytes), s)

/-- The message of the ValueError if the text cannot be formatted (pyolecf_error.c:107-113, 247-253, 369-375).
  Simplified: it is not spelled out. -/
def unableToFormat : Bytes := []

/-- pyolecf/pyolecf_error.c:59-175 (pyolecf_error_fetch); `text` the formatted text, `none` if PyOS_vsnprintf fails.
  The format string is never missing.  The result is the message that libcerror_error_set is given, `none` if it is
  not called. -/
def errorFetch (types : PyTypes) (repr : Nat → ReprResult) (text : Option Bytes) (s : PyErrState) :
    Res (Option Bytes) × PyErrState :=
  match text with
  | none => (.ok none, pyErrFormat types.valueError unableToFormat s)
  | some text =>
    let error := trimPoint (keptText text)
    match fetchText types repr s with
    | (.ok (exc, string, bytes), s) =>
      let message := match exc with
        | some x => error ++ withError ++ x ++ [46]
        | none => error ++ [46]
      (.ok (some message), releaseRef string (releaseRef bytes s))
    | (.err, s) => (.err, s)
    | (.ub, s) => (.ub, s)
    | (.hang, s) => (.hang, s)

/-- pyolecf/pyolecf_error.c:201-304 (pyolecf_error_fetch_and_raise).  The bytes object is not released. -/
def errorFetchAndRaise (types : PyTypes) (repr : Nat → ReprResult) (type : Nat) (text : Option Bytes)
    (s : PyErrState) : Res Unit × PyErrState :=
  match text with
  | none => (.ok (), pyErrFormat types.valueError unableToFormat s)
  | some text =>
    let error := trimPoint (keptText text)
    match fetchText types repr s with
    | (.ok (exc, string, _), s) =>
      let message := match exc with
        | some x => error ++ withError ++ x ++ [46]
        | none => error ++ [46]
      (.ok (), releaseRef string (pyErrFormat type message s))
    | (.err, s) => (.err, s)
    | (.ub, s) => (.ub, s)
    | (.hang, s) => (.hang, s)

/-- The loop of pyolecf_error.c:385-397: line breaks become spaces, up to the first zero.  The second component: a zero
  was found. -/
def lineLoop : Bytes → Bytes × Bool
  | [] => ([], false)
  | c :: rest =>
    if c = 0 then (c :: rest, true)
    else
      let r := lineLoop rest
      ((if c = 10 ∨ c = 13 then 32 else c) :: r.1, r.2)

/-- pyolecf/pyolecf_error.c:330-417 (pyolecf_error_raise).  `buffer` is what libcerror_error_backtrace_sprint left in
  the buffer of 2048 bytes, `none` if there is no error or it returned -1. -/
def errorRaise (types : PyTypes) (type : Nat) (text : Option Bytes) (buffer : Option Bytes) (s : PyErrState) :
    Res Unit × PyErrState :=
  match text with
  | none => (.ok (), pyErrFormat types.valueError unableToFormat s)
  | some text =>
    match buffer with
    | none => (.ok (), pyErrFormat type (keptText text) s)
    | some buffer =>
      let (b, found) := lineLoop buffer
      let b := if found then b else b.set 2047 0
      match bufferString b with
      | .ok error => (.ok (), pyErrFormat type (keptText text ++ [32] ++ error) s)
      | .err => (.err, s)
      | .ub => (.ub, s)
      | .hang => (.hang, s)

/-- Calls of the library that fail since Python code raised: each raises its exception and the bindings fetch it. -/
def errorFetches (types : PyTypes) (repr : Nat → ReprResult) : List (PyExc × Bytes) → PyErrState → PyErrState
  | [], s => s
  | (e, text) :: rest, s =>
    errorFetches types repr rest (errorFetch types repr (some text) { s with set := some (.inl e) }).2

end Olecf
