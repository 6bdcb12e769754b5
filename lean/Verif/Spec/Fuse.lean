import Verif.Model.Fuse
import Verif.Spec.Mount
import Verif.Spec.Layout
import Verif.Spec.Export

/-
  Specification of a mounted file system.
-/

namespace Olecf.Spec

/-- The path of a list of file names. -/
def mountPath : List Bytes → Bytes
  | [] => [0x2f]
  | n :: ns => (n :: ns).flatMap (0x2f :: ·)

/-- The file types in `st_mode`. -/
def IsDirMode (mode : Nat) : Prop := mode / 0x1000 = 4
def IsFileMode (mode : Nat) : Prop := mode / 0x1000 = 8

instance (m) : Decidable (IsDirMode m) := inferInstanceAs (Decidable (_ = _))
instance (m) : Decidable (IsFileMode m) := inferInstanceAs (Decidable (_ = _))

/-- What a read from an open part of a document gives. -/
def Doc.readAt : Doc → Nat → Nat → Except Errno Bytes
  | .stream data, offset, size => .ok ((data.drop offset).take size)
  | .storage _, _, _ => .error .eio

/-- Reads from the file handle, of up to 2^31 - 1 bytes at any offset, give the data of the part. -/
def ReadsAs (env : FuseEnv) (h : FuseHandle) (d : Doc) : Prop :=
  ∀ size offset : Nat, size ≤ 2 ^ 31 - 1 → offset < 2 ^ 63 →
    (fuseRead env size offset (some h)).1 = .ok (d.readAt offset size)

/-- The names of the parts of a document can be mounted: `chars` gives their characters.  They are not
  empty, contain neither the end of string character nor the separator of item paths, are not `.` or
  `..` and can be told apart; libuna gives them as UTF-8 strings; and no path is longer than
  2^62 bytes. -/
structure Mountable (env : FuseEnv) (chars : Bytes → List Nat) (doc : Doc) : Prop where
  name : ∀ path n d, DocAt doc (path ++ [n]) d → NameChars (chars n) ∧ 0x5c ∉ chars n ∧
    utf8 env.k (chars n) ≠ [0x2e] ∧ utf8 env.k (chars n) ≠ [0x2e, 0x2e]
  utf8Name : ∀ (e : DirEntry) path d, DocAt doc (path ++ [e.name]) d →
    env.utf8Name e = some (utf8 env.k (chars e.name))
  compare : ∀ path kids, DocAt doc path (.storage kids) → ∀ a ∈ kids, ∀ b ∈ kids,
    env.cmp (utf8 env.k (chars a.1)) b.1 = some (decide (a.1 = b.1))
  distinct : ∀ path kids, DocAt doc path (.storage kids) → (kids.map (·.1)).Nodup
  short : ∀ path d, DocAt doc path d →
    (path.map fun n => 10 * (utf8 env.k (chars n)).length + 1).sum < 2 ^ 62

/-- A FILETIME is not set, or its distance from 1970 in nanoseconds fits in 64 bits (the years 1678 to
  2261). -/
def TimeFits (filetime : Nat) : Prop :=
  filetime = 0 ∨ (-2 ^ 63 ≤ filetimeNanoseconds filetime ∧ filetimeNanoseconds filetime < 2 ^ 63)

/-- The mounted file system presents the document, with file names `mname` for the names of its
  parts. -/
structure Presents (env : FuseEnv) (mname : Bytes → Bytes) (doc : Doc) : Prop where
  /-- File names can be used in paths and differ in a directory. -/
  plain : ∀ path n d, DocAt doc (path ++ [n]) d → PlainName (mname n) ∧ (0 : UInt8) ∉ mname n
  distinct : ∀ path kids, DocAt doc path (.storage kids) → (kids.map fun k => mname k.1).Nodup
  /-- A storage is a directory.  It can be listed: itself, the parent directory, and its parts, with
    the attributes that they have. -/
  storages : ∀ path kids, DocAt doc path (.storage kids) → ∃ s h parent rest,
    fuseGetattr env (mountPath (path.map mname)) = .ok (.ok s) ∧ IsDirMode s.mode ∧
    fuseOpendir env (mountPath (path.map mname)) none = .ok (.ok h) ∧
    fuseReaddir env (some h) = .ok (.ok (⟨[0x2e], s⟩ :: ⟨[0x2e, 0x2e], parent⟩ :: rest)) ∧
    (rest.map (·.name)).Perm (kids.map fun k => mname k.1) ∧
    ∀ x ∈ rest, fuseGetattr env (mountPath (path.map mname ++ [x.name])) = .ok (.ok x.stat)
  /-- A stream is a file of its size.  It can be opened for reading, and reads give its data. -/
  streams : ∀ path data, DocAt doc path (.stream data) → ∃ s,
    fuseGetattr env (mountPath (path.map mname)) = .ok (.ok s) ∧ IsFileMode s.mode ∧
    s.size = data.length ∧
    ∀ flags, flags % 4 = 0 → ∃ h,
      fuseOpen env (mountPath (path.map mname)) flags none = .ok (.ok h) ∧
      ReadsAs env h (.stream data)
  /-- Whatever path can be opened, what is read is the data of a part. -/
  nothingElse : ∀ p flags h, fuseOpen env p flags none = .ok (.ok h) →
    ∃ path d, DocAt doc path d ∧ ReadsAs env h d
  /-- Nothing can be opened for writing. -/
  readOnly : ∀ p flags h, flags % 4 ≠ 0 → fuseOpen env p flags none ≠ .ok (.ok h)

/-- The instant of seconds and nanoseconds. -/
def instant (t : Int × Int) : Int := t.1 * 1000000000 + t.2

/-- A valid `struct timespec`. -/
def ValidTime (t : Int × Int) : Prop := 0 ≤ t.2 ∧ t.2 < 1000000000

instance (t) : Decidable (ValidTime t) := inferInstanceAs (Decidable (_ ∧ _))

/-- The number of open file handles. -/
def FuseState.openHandles (st : FuseState) : Nat := (st.handles.filter (·.isSome)).length

/-- The operation takes the file handle `i` away. -/
def Releases (i : Nat) (op : FuseOp) : Prop := op = .release i ∨ op = .releasedir i

/-- The offset of a read is a 64-bit signed integer. -/
def _root_.Olecf.FuseOp.InRange : FuseOp → Prop
  | .read _ _ offset => -2 ^ 63 ≤ offset ∧ offset < 2 ^ 63
  | _ => True

/-- The state after further operations. -/
def fuseAfter (env : FuseEnv) (st : FuseState) (ops : List FuseOp) : FuseState :=
  ops.foldl (fun st op => (fuseStep env st op).2) st

end Olecf.Spec
