import Verif.Model.Export
import Verif.Spec.Layout

/-
  Specification of the export.
-/

namespace Olecf.Spec

/-- A file system as it can be: directories and files are in directories, and no path is both. -/
structure Tidy (fs : Fs) : Prop where
  root : fs.dir [] = true
  dirs : ∀ p, fs.dir p = true → fs.dir p.dropLast = true
  files : ∀ p, (fs.file p).isSome → fs.dir p.dropLast = true
  apart : ∀ p, fs.dir p = true → fs.file p = none

/-- `fs'` has everything that `fs` has, unchanged, and what it has besides that lies at or below
  the path `dir`. -/
structure GrownAt (dir : Path) (fs fs' : Fs) : Prop where
  dirs : ∀ p, fs.dir p = true → fs'.dir p = true
  files : ∀ p data, fs.file p = some data → fs'.file p = some data
  fresh : ∀ p, fs'.has p = true → fs.has p = false → dir <+: p

/-- What is assumed of `libcpath_path_get_sanitized_filename`: the result has no separator. -/
def NoSeparator (sanitize : Bytes → Option Bytes) : Prop :=
  ∀ raw name, sanitize raw = some name → (0x2f : UInt8) ∉ name

/-- A name that refers to an entry of a directory of its own. -/
def PlainName (name : Bytes) : Prop :=
  name ≠ [] ∧ name ≠ [0x2e] ∧ name ≠ [0x2e, 0x2e] ∧ (0x2f : UInt8) ∉ name

instance (n) : Decidable (PlainName n) := inferInstanceAs (Decidable (_ ∧ _))

/-- The whole data of an item, as a single read from the start returns it.  An item of size 0 has
  no data, whatever its type. -/
def WholeData (f : FileCtx) (d : DirEntry) (data : Bytes) : Prop :=
  if d.size = 0 then data = [] else (streamRead f d 0 d.size).1.res = .ok data

/-- The item `it` is found below `start` by the file names `names`. -/
inductive NamedFrom (t : Tree) (nameOf : DirEntry → Bytes) (start : Item) :
    List Bytes → Item → Prop
  | here : NamedFrom t nameOf start [] start
  | sub {names : List Bytes} {it s : Item} {i : Nat} : NamedFrom t nameOf start names it →
      getSubItem t it i = .ok s → NamedFrom t nameOf start (names ++ [nameOf s.entry]) s

/-- The sub items of `it` are nested at most `n` levels deep. -/
def NestedAtMost (t : Tree) : Nat → Item → Prop
  | 0, it => numberOfSubItems t it = 0
  | n + 1, it => ∀ (i : Nat) s, getSubItem t it i = .ok s → NestedAtMost t n s

/-- An item, with its sub items at all levels, that is exported without trouble: the names of
  sub items are plain, not the name of the data file and distinct among siblings, and the data of
  each can be read in whatever pieces. -/
structure Exportable (env : ExportEnv) (nameOf : DirEntry → Bytes) (start : Item) : Prop where
  named : ∀ names it, NamedFrom env.tree nameOf start names it → names ≠ [] →
    (env.utf8Name it.entry).bind env.sanitize = some (nameOf it.entry)
  plain : ∀ names it, NamedFrom env.tree nameOf start names it → names ≠ [] →
    PlainName (nameOf it.entry) ∧ nameOf it.entry ≠ dataName
  distinct : ∀ names it, NamedFrom env.tree nameOf start names it → ∀ (i j : Nat) a b,
    getSubItem env.tree it i = .ok a → getSubItem env.tree it j = .ok b →
    nameOf a.entry = nameOf b.entry → i = j
  readable : ∀ names it, NamedFrom env.tree nameOf start names it → names ≠ [] →
    it.entry.size = 0 ∨ ∀ cur size : Nat, size ≤ 2 ^ 63 - 1 →
      ∃ data, (streamRead env.ctx it.entry cur size).1.res = .ok data

/-- File names `g` for the names of the parts of a document with which it can be written as a
  directory hierarchy: they are plain, not the name of the data file and distinct in each storage. -/
structure GoodNames (g : Bytes → Bytes) (doc : Doc) : Prop where
  plain : ∀ path n d, DocAt doc (path ++ [n]) d → PlainName (g n) ∧ g n ≠ dataName
  distinct : ∀ path kids, DocAt doc path (.storage kids) → (kids.map fun k => g k.1).Nodup

/-- The directory `dir` of `fs'` was made as an image of the document: for every part there is a
  directory at the path of its file names, with a data file with the data of the part, and there is
  nothing else that was not in `fs` already. -/
structure ImageAt (g : Bytes → Bytes) (doc : Doc) (dir : Path) (fs fs' : Fs) : Prop where
  dirs : ∀ path d, DocAt doc path d → fs'.dir (dir ++ path.map g) = true
  files : ∀ path d, DocAt doc path d → path ≠ [] →
    fs'.file (dir ++ path.map g ++ [dataName]) = some d.data
  only : ∀ q, fs'.has q = true → fs.has q = false → ∃ path d, DocAt doc path d ∧
    (q = dir ++ path.map g ∨ path ≠ [] ∧ q = dir ++ path.map g ++ [dataName])
  kept : GrownAt dir fs fs'

/-- The directory `dir` of `fs'` is a part of an image of the document: the directories that were not in
  `fs` are directories of parts, the files that were not in `fs` are data files with an initial segment
  of the data of their part, and everything in `fs` is kept. -/
structure PartOfImage (g : Bytes → Bytes) (doc : Doc) (dir : Path) (fs fs' : Fs) : Prop where
  dirs : ∀ q, fs'.dir q = true → fs.dir q = false → ∃ path d, DocAt doc path d ∧ q = dir ++ path.map g
  files : ∀ q data, fs'.file q = some data → fs.file q = none → ∃ path d, DocAt doc path d ∧ path ≠ [] ∧
    q = dir ++ path.map g ++ [dataName] ∧ data <+: d.data
  kept : GrownAt dir fs fs'

/-- A file system before and after one operation, or the same. -/
def OneOperation (fs fs' : Fs) : Prop :=
  fs' = fs ∨ ∃ p, (fs.has p = false ∧ fs' = fs.addDir p) ∨ (fs.dir p = false ∧ fs' = fs.setFile p (some [])) ∨
    ∃ data, fs' = fs.setFile p ((fs.file p).map (· ++ data))

/-- The program is killed when it has tried `k` operations on the file system: no operation from then on
  has an effect. -/
def killedAt (env : ExportEnv) (k : Nat) : ExportEnv :=
  { env with
    fault := fun n => env.fault n || decide (k ≤ n)
    cut := fun n => if n < k then env.cut n else 0 }

end Olecf.Spec
