import Verif.Model.Item
import Verif.Model.Stream

/-
  olecftools/export_handle.c: the export of items to directories and files.

  Modelled is the build with narrow system characters on a POSIX system.  The log file and the
  output to stdout are left out, and so is the abort flag, which the functions modelled here do
  not read.
-/

namespace Olecf

/-- An absolute path without `.` and `..`, as the list of its components. -/
abbrev Path := List Bytes

/-- The components of a string, which are separated by `/`. -/
def components : Bytes → List Bytes
  | [] => [[]]
  | c :: rest =>
    if c = 0x2f then [] :: components rest
    else match components rest with
      | [] => [[c]]
      | x :: xs => (c :: x) :: xs

/-- One step of the resolution of a path by the system. -/
def walk (p : Path) (c : Bytes) : Path :=
  if c = [] ∨ c = [0x2e] then p else if c = [0x2e, 0x2e] then p.dropLast else p ++ [c]

/-- The path that `dir` joined with the string `name` (`libcpath_path_join`) refers to.  There are
  no symbolic links, and directories on the way are taken to exist. -/
def resolve (dir : Path) (name : Bytes) : Path := (components name).foldl walk dir

/-- The part of a file system that is used: which paths are directories, and the content of
  files. -/
structure Fs where
  dir : Path → Bool
  file : Path → Option Bytes

/-- Whether there is a directory or file with this path. -/
def Fs.has (fs : Fs) (p : Path) : Bool := fs.dir p || (fs.file p).isSome

/-- A new directory. -/
def Fs.addDir (fs : Fs) (p : Path) : Fs :=
  { fs with dir := fun q => if q = p then true else fs.dir q }

/-- New content of a file. -/
def Fs.setFile (fs : Fs) (p : Path) (data : Option Bytes) : Fs :=
  { fs with file := fun q => if q = p then data else fs.file q }

/-- The outside world: the file system and how many operations were tried on it. -/
structure Disk where
  fs : Fs
  tick : Nat

/-- What the export depends on: the open file, the functions of libuna (the UTF-8 name of an
  entry, without end of string character) and libcpath (the sanitized file name), which may fail,
  and which of the operations on the file system fail for reasons outside of the program; `cut` is how
  much of the data is written by a write that fails.

  `libcpath_path_get_sanitized_filename` gives a string in a buffer of exactly the size of the
  string with its end of string character: the size that it returns is used as such,
  export_handle.c:910-932. -/
structure ExportEnv where
  ctx : FileCtx
  tree : Tree
  utf8Name : DirEntry → Option Bytes
  sanitize : Bytes → Option Bytes
  fault : Nat → Bool
  cut : Nat → Nat := fun _ => 0

/-- The next statements, after an `if( ... != 1 ) goto on_error`. -/
def diskThen (r : Disk × Res α) (f : Disk → α → Disk × Res β) : Disk × Res β :=
  match r with
  | (w, .ok a) => f w a
  | (w, .err) => (w, .err)
  | (w, .ub) => (w, .ub)
  | (w, .hang) => (w, .hang)

/-- An operation on the file system: it may fail for an outside reason. -/
def fsOp (env : ExportEnv) (w : Disk) (f : Fs → Option (α × Fs)) : Disk × Res α :=
  if env.fault w.tick then (⟨w.fs, w.tick + 1⟩, .err)
  else match f w.fs with
    | some (a, fs) => (⟨fs, w.tick + 1⟩, .ok a)
    | none => (⟨w.fs, w.tick + 1⟩, .err)

/-- `libcfile_file_exists`. -/
def fsExists (env : ExportEnv) (w : Disk) (p : Path) : Disk × Res Bool :=
  fsOp env w fun fs => some (fs.has p, fs)

/-- `libcpath_path_make_directory`: `mkdir`. -/
def fsMkdir (env : ExportEnv) (w : Disk) (p : Path) : Disk × Res Unit :=
  fsOp env w fun fs =>
    if fs.has p ∨ p = [] ∨ ¬ fs.dir p.dropLast then none
    else some ((), fs.addDir p)

/-- `libcfile_file_open` with `LIBCFILE_OPEN_WRITE`: an empty file, also if there was one. -/
def fsCreate (env : ExportEnv) (w : Disk) (p : Path) : Disk × Res Unit :=
  fsOp env w fun fs =>
    if fs.dir p ∨ p = [] ∨ ¬ fs.dir p.dropLast then none
    else some ((), fs.setFile p (some []))

/-- `libcfile_file_write_buffer` at the end of the file, export_handle.c:1261-1277.  A write that fails, or
  that returns another number than the size, which is taken as a failure, may have written a part. -/
def fsAppend (env : ExportEnv) (w : Disk) (p : Path) (data : Bytes) : Disk × Res Unit :=
  if env.fault w.tick then
    (⟨w.fs.setFile p ((w.fs.file p).map (· ++ data.take (env.cut w.tick))), w.tick + 1⟩, .err)
  else (⟨w.fs.setFile p ((w.fs.file p).map (· ++ data)), w.tick + 1⟩, .ok ())

/-- `libcfile_file_close`. -/
def fsClose (env : ExportEnv) (w : Disk) : Disk × Res Unit := fsOp env w fun fs => some ((), fs)

/-- `EXPORT_HANDLE_BUFFER_SIZE`, export_handle.c:37. -/
abbrev exportBufferSize : Nat := 32768

/-- The loop that copies the data of a stream, export_handle.c:1234-1278: `remaining` is
  `stream_data_size`, `cur` the offset of the item. -/
def copyLoop (env : ExportEnv) (d : DirEntry) (p : Path) :
    Nat → Nat → Int → Disk → Disk × Res Unit
  | fuel, remaining, cur, w =>
    if remaining = 0 then (w, .ok ())
    else match fuel with
      | 0 => (w, .hang)
      | fuel + 1 =>
        let readSize := if exportBufferSize > remaining then remaining else exportBufferSize
        diskThen (w, (streamRead env.ctx d cur readSize).1.res) fun w data =>
          if data.length ≠ readSize then (w, .err)
          else diskThen (fsAppend env w p data) fun w _ =>
            copyLoop env d p fuel (remaining - readSize) (streamRead env.ctx d cur readSize).2 w

/-- The name of the data file, export_handle.c:1100: `StreamData.bin`. -/
def dataName : Bytes := [0x53, 0x74, 0x72, 0x65, 0x61, 0x6d, 0x44, 0x61, 0x74, 0x61, 0x2e, 0x62,
  0x69, 0x6e]

/-- The digits of a number. -/
def decimal (n : Nat) : Bytes :=
  if n < 10 then [UInt8.ofNat (48 + n)]
  else decimal (n / 10) ++ [UInt8.ofNat (48 + n % 10)]
termination_by n
decreasing_by omega

/-- The text of the format `Item%05d`, export_handle.c:987. -/
def fallbackText (n : Nat) : Bytes :=
  [0x49, 0x74, 0x65, 0x6d] ++ List.replicate (5 - (decimal n).length) 0x30 ++ decimal n

/-- The name used when the first one exists, export_handle.c:984-1003: `snprintf` with size 10 to
  the buffer of the sanitized name `name`, then `item_name[ 9 ] = 0`. -/
def fallbackName (name : Bytes) (index : Nat) : Res Bytes :=
  let text := fallbackText (index + 1)
  if min 10 (text.length + 1) > name.length + 1 then .ub
  else if text.length > 12 then .err
  else if 10 > name.length + 1 then .ub
  else .ok (text.take 9)

/-- The part of a C function that does not touch the file system. -/
def pureStep (w : Disk) (r : Res α) : Disk × Res α := (w, r)

/-- The first part of `export_handle_export_item`, export_handle.c:816-1077: the directory of the
  item, which is made in the directory `dir`.  The size and the text of the name are those of
  `libolecf_item_get_utf8_name_size` and `libolecf_item_get_utf8_name`. -/
def makeItemDirectory (env : ExportEnv) (d : DirEntry) (index : Nat) (dir : Path) (w : Disk) :
    Disk × Res Path :=
  match env.utf8Name d with
  | none => (w, .err)
  | some raw =>
    match env.sanitize raw with
    | none => (w, .err)
    | some name =>
      diskThen (fsExists env w (resolve dir name)) fun w found =>
        diskThen (pureStep w (if found then fallbackName name index else .ok name)) fun w name =>
          diskThen (fsMkdir env w (resolve dir name)) fun w _ => (w, .ok (resolve dir name))

/-- The second part of `export_handle_export_item`, export_handle.c:1085-1311: the data file in
  the directory `dir` of the item; `false` if the file exists and the item is skipped.  The size
  is that of `libolecf_item_get_size`, libolecf_item.c:543-589. -/
def writeItemData (env : ExportEnv) (d : DirEntry) (dir : Path) (w : Disk) : Disk × Res Bool :=
  diskThen (fsExists env w (resolve dir dataName)) fun w found =>
    if found then (w, .ok false)
    else diskThen (fsCreate env w (resolve dir dataName)) fun w _ =>
      diskThen (copyLoop env d (resolve dir dataName) d.size d.size 0 w) fun w _ =>
        diskThen (fsClose env w) fun w _ => (w, .ok true)

/-- The loop of `export_handle_export_sub_items`, export_handle.c:1434-1505: `n` more sub items
  from `index` on; `exportOne` is `export_handle_export_item`.  An item that cannot be exported is
  reported and the loop goes on. -/
def exportLoop (env : ExportEnv) (exportOne : Item → Nat → Disk → Disk × Res Unit)
    (item : Item) : Nat → Nat → Disk → Disk × Res Unit
  | 0, _, w => (w, .ok ())
  | n + 1, index, w =>
    diskThen (pureStep w (getSubItem env.tree item index)) fun w sub =>
      match exportOne sub index w with
      | (w, .ok _) => exportLoop env exportOne item n (index + 1) w
      | (w, .err) => exportLoop env exportOne item n (index + 1) w
      | (w, .ub) => (w, .ub)
      | (w, .hang) => (w, .hang)

/-- `export_handle_export_item`, export_handle.c:744-1369, with
  `export_handle_export_sub_items`, export_handle.c:1374-1507.  `fuel` bounds the depth of the
  recursion. -/
def exportItem (env : ExportEnv) : Nat → Path → Item → Nat → Disk → Disk × Res Unit
  | 0, _, _, _, w => (w, .hang)
  | fuel + 1, dir, item, index, w =>
    diskThen (makeItemDirectory env item.entry index dir w) fun w itemDir =>
      diskThen (writeItemData env item.entry itemDir w) fun w written =>
        if written then
          exportLoop env (exportItem env fuel itemDir) item (numberOfSubItems env.tree item) 0 w
        else (w, .ok ())

/-- `export_handle_export_file`, export_handle.c:1512-1622, for a file that has a root item (else
  nothing is exported): the sub items of the root go to the new directory `dir`, which is
  `items_export_path`. -/
def exportFile (env : ExportEnv) (fuel : Nat) (dir : Path) (w : Disk) : Disk × Res Unit :=
  diskThen (fsMkdir env w dir) fun w _ =>
    exportLoop env (exportItem env fuel dir) ⟨none, env.tree.root⟩
      (numberOfSubItems env.tree ⟨none, env.tree.root⟩) 0 w

end Olecf
