import Verif.Model.Dokan
import Verif.Spec.MountWide
import Verif.Spec.Fuse
import Verif.Spec.Marks

/-
  Specification of a file mounted as a drive of Windows.
-/

namespace Olecf.Spec

/-- The path of a list of file names. -/
def drivePath : List Wide → Wide
  | [] => [0x5c]
  | n :: ns => (n :: ns).flatMap (0x5c :: ·)

/-- The size of a file and the value of a time, of their two halves. -/
def fileSize (i : DokanInfo) : Nat := i.sizeHigh * 2 ^ 32 + i.sizeLow
def timeValue (t : FileTime) : Nat := t.high * 2 ^ 32 + t.low

/-- Reads from the context, of up to 2^31 - 1 bytes at any offset, give the data of the part. -/
def DriveReads (env : DokanEnv) (h : DokanHandle) (d : Doc) : Prop :=
  ∀ size offset : Nat, size ≤ 2 ^ 31 - 1 → offset < 2 ^ 63 →
    (dokanRead env size offset (some h)).1 = .ok (match d with
      | .stream data => .ok ((data.drop offset).take size)
      | .storage _ => .error .readFault)

/-- A request to open an existing file without write access, of either version of Dokan. -/
inductive OpensFile (env : DokanEnv) (p : Wide) : DokanRes DokanHandle → Prop
  | old {access : Nat} : access / 2 ^ 30 % 2 = 0 → OpensFile env p (createFile env p access 3 none)
  | new {access disposition : Nat} : access / 2 ^ 30 % 2 = 0 → disposition = 1 ∨ disposition = 3 →
      OpensFile env p (zwCreateFile env p access disposition none)
  | directory : OpensFile env p (openDirectory env p none)

/-- Any request to open or create a file or directory. -/
inductive AsksFile (env : DokanEnv) (p : Wide) : DokanRes DokanHandle → Prop
  | old {access disposition : Nat} : AsksFile env p (createFile env p access disposition none)
  | new {access disposition : Nat} : AsksFile env p (zwCreateFile env p access disposition none)
  | directory : AsksFile env p (openDirectory env p none)

/-- The names of the parts of a document can be mounted on a drive: `chars` gives their characters.  Files of
  Windows can have them, apart from characters that are not allowed; they contain neither the end of string
  character nor the separator of item paths, have at most 31 UTF-16 code units and can be told apart; libuna gives
  them as UTF-16 strings; and the document is not deeper than 2^50. -/
structure DriveMountable (env : DokanEnv) (chars : Bytes → List Nat) (doc : Doc) : Prop where
  name : ∀ path n d, DocAt doc (path ++ [n]) d → NameChars (chars n) ∧ 0x5c ∉ chars n ∧
    Ordinary (chars n) ∧ (wide (chars n)).length ≤ 31
  name16 : ∀ (e : DirEntry) path d, DocAt doc (path ++ [e.name]) d →
    env.name16 e = some (wide (chars e.name))
  compare : ∀ path kids, DocAt doc path (.storage kids) → ∀ a ∈ kids, ∀ b ∈ kids,
    env.cmp (wide (chars a.1)) b.1 = some (decide (a.1 = b.1))
  distinct : ∀ path kids, DocAt doc path (.storage kids) → (kids.map (·.1)).Nodup
  depth : ∀ path d, DocAt doc path d → path.length < 2 ^ 50

/-- The drive presents the document, with file names `mname` for the names of its parts. -/
structure DrivePresents (env : DokanEnv) (mname : Bytes → Wide) (doc : Doc) : Prop where
  /-- File names are valid and differ in a directory. -/
  valid : ∀ path n d, DocAt doc (path ++ [n]) d → ∃ ds, WindowsName (mname n) ds
  distinct : ∀ path kids, DocAt doc path (.storage kids) → (kids.map fun k => mname k.1).Nodup
  /-- A storage is a directory, whatever the structure for its attributes holds before.  It can be listed:
    itself, an entry for the parent directory, and its parts, with the attributes that they have. -/
  storages : ∀ path kids, DocAt doc path (.storage kids) →
    (∀ info, ∃ s, getFileInformation env (drivePath (path.map mname)) info = .ok (.ok s) ∧
      s.directory = true) ∧
    (∀ r, OpensFile env (drivePath (path.map mname)) r → ∃ h, r = .ok (.ok h)) ∧
    ∃ self parent rest,
      findFiles env (drivePath (path.map mname)) = (self :: parent :: rest, .ok (.ok ())) ∧
      self.name = [0x2e] ∧ parent.name = [0x2e, 0x2e] ∧
      getFileInformation env (drivePath (path.map mname)) .cleared = .ok (.ok self.info) ∧
      (rest.map (·.name)).Perm (kids.map fun k => mname k.1) ∧
      ∀ x ∈ rest, getFileInformation env (drivePath (path.map mname ++ [x.name])) .cleared =
        .ok (.ok x.info)
  /-- A stream is a file of its size (if it is empty, only where the structure for its attributes has a size of 0
    before).  It can be opened for reading, and reads give its data. -/
  streams : ∀ path data, DocAt doc path (.stream data) →
    (∀ info, (data = [] → fileSize info = 0) → ∃ s,
      getFileInformation env (drivePath (path.map mname)) info = .ok (.ok s) ∧ s.directory = false ∧
      fileSize s = data.length) ∧
    (∀ r, OpensFile env (drivePath (path.map mname)) r → ∃ h, r = .ok (.ok h) ∧
      DriveReads env h (.stream data))
  /-- Whatever path can be opened, what is read is the data of a part. -/
  nothingElse : ∀ p r h, AsksFile env p r → r = .ok (.ok h) → ∃ path d, DocAt doc path d ∧ DriveReads env h d

/-- The attributes of the parts of a document have the stored times, and the time of the mount for the time of
  access. -/
def DriveTimes (env : DokanEnv) (mname : Bytes → Wide) (doc : Doc) (marks : Nat → EntryMarks) : Prop :=
  ∀ path d i, PlacedAt doc path d i → ∀ info, ∃ s,
    getFileInformation env (drivePath (path.map mname)) info = .ok (.ok s) ∧
    timeValue s.created = (marks i).created ∧ timeValue s.written = (marks i).modified ∧
    timeValue s.accessed = env.mounted

/-- Names that a drive can have: no backslash, and those that a file of Windows can have but for characters that
  are not allowed. -/
def DriveNames (e : Endian) (kids : List (Bytes × Doc)) : Prop :=
  ∀ cs, NameText cs → storedName e cs ∈ namesOfKids kids → 0x5c ∉ cs ∧ Ordinary cs

/-- The number of open contexts. -/
def DokanState.openContexts (st : DokanState) : Nat := (st.contexts.filter (·.isSome)).length

/-- The offset of a read is a 64-bit signed integer. -/
def _root_.Olecf.DokanOp.InRange : DokanOp → Prop
  | .read _ _ offset => -2 ^ 63 ≤ offset ∧ offset < 2 ^ 63
  | _ => True

/-- The state after further operations. -/
def dokanAfter (env : DokanEnv) (st : DokanState) (ops : List DokanOp) : DokanState :=
  ops.foldl (fun st op => (dokanStep env st op).2) st

/-- An operation that opens a file or directory. -/
def _root_.Olecf.DokanOp.Opens : DokanOp → Prop
  | .create .. => True
  | .zwCreate .. => True
  | .openDirectory _ => True
  | _ => False

end Olecf.Spec
