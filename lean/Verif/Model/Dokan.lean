import Verif.Model.MountWide

/-
  olecftools/mount_dokan.c: the operations that libdokan calls for a mounted file, on Windows.

  `path`, `file_info` and the pointers to what is filled are never NULL; that the callback which takes the
  entries of a directory accepts them is assumed, and that memory is not short.  The operations are taken one
  after the other: that is so if `SingleThread` is set (olecfmount.c:492-493); for older versions of libdokan
  the number of threads is left to it (olecfmount.c:495), which is not modelled.
-/

namespace Olecf

/-- The values that tell of failure.  `badArguments` and `failure` are one value for Dokan of version 0.8 or
  later (mount_dokan.c:39-51); `exists` stands for `ERROR_FILE_EXISTS` and
  `STATUS_OBJECT_NAME_COLLISION`. -/
inductive DokanError where
  | badArguments
  | failure
  | notFound
  | readFault
  | writeProtect
  | exists
  | alreadyExists
  | denied
  deriving Repr, DecidableEq

/-- What an operation returns to libdokan. -/
abbrev DokanRes (α : Type) := Res (Except DokanError α)

/-- A mounted file: its tree and what is needed to read its streams, libuna and the names of items (see
  `mountItemNameW`), and the time of the mount as a FILETIME (`mounted_timestamp`,
  mount_file_system.c:125-159).  `longPaths` tells whether `HAVE_DOKAN_LONG_PATHS` is defined. -/
structure DokanEnv where
  k : WideCodec
  cmp : Wide → Bytes → Option Bool
  name16 : DirEntry → Option Wide
  tree : Tree
  ctx : FileCtx
  mounted : Nat
  longPaths : Bool

/-- `FILETIME`. -/
structure FileTime where
  low : Nat
  high : Nat
  deriving Repr, DecidableEq

/-- The fields of `BY_HANDLE_FILE_INFORMATION` that are set, which `WIN32_FIND_DATAW` has as well. -/
structure DokanInfo where
  sizeHigh : Nat
  sizeLow : Nat
  directory : Bool
  created : FileTime
  accessed : FileTime
  written : FileTime
  deriving Repr, DecidableEq

/-- All bits zero; `dwFileAttributes` is always set. -/
def DokanInfo.cleared : DokanInfo := ⟨0, 0, false, ⟨0, 0⟩, ⟨0, 0⟩, ⟨0, 0⟩⟩

/-- The two halves of a time, e.g. mount_dokan.c:98-99. -/
def fileTime (t : Nat) : FileTime := ⟨t % 2 ^ 32, t / 2 ^ 32 % 2 ^ 32⟩

/-- `mount_dokan_set_file_information`, mount_dokan.c:63-108, and `mount_dokan_set_find_data`,
  mount_dokan.c:114-159: the same assignments to another structure.  A size of 0 is not written. -/
def setInfo (info : DokanInfo) (size mode created accessed modified : Nat) : DokanInfo :=
  let info := if size > 0 then { info with sizeHigh := size / 2 ^ 32 % 2 ^ 32, sizeLow := size % 2 ^ 32 }
    else info
  { info with
    directory := mode &&& 0x4000 ≠ 0
    created := fileTime created
    accessed := fileTime accessed
    written := fileTime modified }

/-- `mount_file_entry_get_file_mode`, mount_file_entry.c:509-563: `S_IFDIR | 0555` or `S_IFREG | 0444`. -/
def fileModeW (e : WideEntry) : Nat :=
  if e.item.entry.type = 1 ∨ e.item.entry.type = 5 then 0x416d else 0x8124

/-- The attributes of a file entry, mount_dokan.c:213-285 and 1328-1410: the size (mount_file_entry.c:924-971),
  the mode, the creation and modification times as they are stored (mount_file_entry.c:297-357 and 404-464),
  and the time of the mount for the time of access (mount_file_entry.c:364-397). -/
def entryInfo (env : DokanEnv) (info : DokanInfo) (e : WideEntry) : DokanInfo :=
  setInfo info e.item.entry.size (fileModeW e) e.item.entry.created env.mounted e.item.entry.modified

/-- `WIN32_FIND_DATAW`: the two strings, up to their end of string characters. -/
structure FindData where
  name : Wide
  alternate : Wide
  info : DokanInfo
  deriving Repr, DecidableEq

/-- `DOKAN_MAX_PATH`, mount_dokan.c:53-57; `MAX_PATH` is 260. -/
def dokanMaxPath (env : DokanEnv) : Nat := if env.longPaths then 32768 else 260

/-- `mount_dokan_filldir`, mount_dokan.c:164-363, for a string `name` kept in `size` characters.  All of them
  are copied (common/wide_string.h:95-102: `wmemcpy` copies what is there, `wcsncpy` fills up with zeros) to
  `cFileName`, which has 260: more is undefined behaviour.  `cAlternateFileName` has 14. -/
def dokanFill (env : DokanEnv) (name : Wide) (size : Nat) (e : Option WideEntry) : Res FindData :=
  if size > dokanMaxPath env then .err
  else if size > 260 then .ub
  else .ok ⟨name, if size ≤ 14 then name else [],
    match e with
    | some e => entryInfo env .cleared e
    | none => setInfo .cleared 0 0 0 0 0⟩

/-- The loop of `mount_dokan_FindFiles` over the sub entries, mount_dokan.c:1094-1209, from `index` on, with
  `mount_file_entry_get_name_size` and `mount_file_entry_get_name`, mount_file_entry.c:569-687: the
  entries that are passed to the callback, and how it ends. -/
def findLoop (env : DokanEnv) (e : WideEntry) : Nat → Nat → List FindData × DokanRes Unit
  | 0, _ => ([], .ok (.ok ()))
  | n + 1, index =>
    match mountSubEntryW env.k env.name16 env.tree e index with
    | .ok s => match dokanFill env s.name s.nameSize (some s) with
      | .ok d =>
        let r := findLoop env e n (index + 1)
        (d :: r.1, r.2)
      | .err => ([], .ok (.error .failure))
      | .ub => ([], .ub)
      | .hang => ([], .hang)
    | .err => ([], .ok (.error .failure))
    | .ub => ([], .ub)
    | .hang => ([], .hang)

/-- `mount_dokan_FindFiles` once the path is found, mount_dokan.c:1005-1225.
  `mount_file_entry_get_parent_file_entry`, mount_file_entry.c:248-290, never has a parent. -/
def findEntries (env : DokanEnv) (e : WideEntry) : List FindData × DokanRes Unit :=
  match dokanFill env [0x2e] 2 (some e) with
  | .ok self => match dokanFill env [0x2e, 0x2e] 3 none with
    | .ok parent =>
      let r := findLoop env e (numberOfSubItems env.tree e.item) 0
      (self :: parent :: r.1, r.2)
    | .err => ([self], .ok (.error .failure))
    | .ub => ([self], .ub)
    | .hang => ([self], .hang)
  | .err => ([], .ok (.error .failure))
  | .ub => ([], .ub)
  | .hang => ([], .hang)

/-- `mount_dokan_FindFiles`, mount_dokan.c:941-1259: the entries that are passed to the callback, and the
  value that is returned. -/
def findFiles (env : DokanEnv) (path : Wide) : List FindData × DokanRes Unit :=
  match mountEntryByPathW env.k env.cmp (some env.tree) path with
  | .ok (some e) => findEntries env e
  | .ok none => ([], .ok (.error .notFound))
  | .err => ([], .ok (.error .notFound))
  | .ub => ([], .ub)
  | .hang => ([], .hang)

/-- `mount_dokan_GetFileInformation`, mount_dokan.c:1265-1463, with the structure as it was before. -/
def getFileInformation (env : DokanEnv) (path : Wide) (info : DokanInfo) : DokanRes DokanInfo :=
  match mountEntryByPathW env.k env.cmp (some env.tree) path with
  | .ok (some e) => .ok (.ok (entryInfo env info e))
  | .ok none => .ok (.error .notFound)
  | .err => .ok (.error .notFound)
  | .ub => .ub
  | .hang => .hang

/-- An open file or directory (`file_info->Context`): the file entry and the current offset of the item that
  it owns. -/
structure DokanHandle where
  entry : WideEntry
  cur : Int

/-- What `mount_dokan_CreateFile`, mount_dokan.c:455-486, `mount_dokan_ZwCreateFile`, mount_dokan.c:564-595,
  and `mount_dokan_OpenDirectory`, mount_dokan.c:658-689, do in the end, with the context on entry. -/
def dokanLookup (env : DokanEnv) (path : Wide) (context : Option DokanHandle) : DokanRes DokanHandle :=
  if context.isSome then .ok (.error .badArguments)
  else match mountEntryByPathW env.k env.cmp (some env.tree) path with
    | .ok (some e) => .ok (.ok ⟨e, 0⟩)
    | .ok none => .ok (.error .notFound)
    | .err => .ok (.error .notFound)
    | .ub => .ub
    | .hang => .hang

/-- `mount_dokan_CreateFile`, mount_dokan.c:370-497 (Dokan before version 0.8).  `GENERIC_WRITE` is bit 30;
  the dispositions are `CREATE_NEW` (1), `CREATE_ALWAYS`, `OPEN_EXISTING` (3), `OPEN_ALWAYS` (4) and
  `TRUNCATE_EXISTING`. -/
def createFile (env : DokanEnv) (path : Wide) (access disposition : Nat) (context : Option DokanHandle) :
    DokanRes DokanHandle :=
  if access / 2 ^ 30 % 2 ≠ 0 then .ok (.error .writeProtect)
  else if disposition = 1 then .ok (.error .exists)
  else if disposition = 2 then .ok (.error .alreadyExists)
  else if disposition = 4 then .ok (.error .notFound)
  else if disposition = 5 then .ok (.error .notFound)
  else if disposition ≠ 3 then .ok (.error .badArguments)
  else dokanLookup env path context

/-- `mount_dokan_ZwCreateFile`, mount_dokan.c:504-606 (Dokan from version 0.8 on): `FILE_OPEN` is 1,
  `FILE_CREATE` 2 and `FILE_OPEN_IF` 3. -/
def zwCreateFile (env : DokanEnv) (path : Wide) (access disposition : Nat) (context : Option DokanHandle) :
    DokanRes DokanHandle :=
  if access / 2 ^ 30 % 2 ≠ 0 then .ok (.error .writeProtect)
  else if disposition = 2 then .ok (.error .exists)
  else if disposition ≠ 1 ∧ disposition ≠ 3 then .ok (.error .denied)
  else dokanLookup env path context

/-- `mount_dokan_OpenDirectory`, mount_dokan.c:615-700 (Dokan before version 0.8). -/
def openDirectory (env : DokanEnv) (path : Wide) (context : Option DokanHandle) : DokanRes DokanHandle :=
  dokanLookup env path context

/-- `mount_file_entry_read_buffer_at_offset`, mount_file_entry.c:851-919. -/
def mountReadW (f : FileCtx) (e : WideEntry) (cur : Int) (size : Nat) (off : Int) : Out Bytes × Int :=
  if e.item.entry.type ≠ 2 then (⟨[], .err⟩, cur)
  else streamReadAt f e.item.entry cur size off

/-- `mount_dokan_ReadFile`, mount_dokan.c:791-935: the bytes in the buffer and the context afterwards. -/
def dokanRead (env : DokanEnv) (size : Nat) (offset : Int) (context : Option DokanHandle) :
    DokanRes Bytes × Option DokanHandle :=
  if size > 2 ^ 31 - 1 then (.ok (.error .badArguments), context)
  else match context with
    | none => (.ok (.error .badArguments), none)
    | some h =>
      let r := mountReadW env.ctx h.entry h.cur size offset
      let context := some { h with cur := r.2 }
      match r.1.res with
      | .ok data =>
        if data.length > 2 ^ 31 - 1 then (.ok (.error .readFault), context)
        else (.ok (.ok data), context)
      | .err => (.ok (.error .readFault), context)
      | .ub => (.ub, context)
      | .hang => (.hang, context)

/-- `mount_dokan_GetVolumeInformation`, mount_dokan.c:1469-1587, for the sizes of the two names in characters
  (`none`: NULL): what is written to them, with the end of string characters. -/
def volumeNames (volumeSize systemSize : Option Nat) : Option Wide × Option Wide :=
  let copy (name : Wide) : Option Nat → Option Wide
    | some size => if size > name.length then some name else none
    | none => none
  (copy [0x4f, 0x4c, 0x45, 0x43, 0x46, 0] volumeSize, copy [0x44, 0x6f, 0x6b, 0x61, 0x6e, 0] systemSize)

/-! ### Histories of operations -/

/-- The contexts that libdokan keeps (`file_info->Context`), and how many file entries are allocated.  The
  entries that `mount_dokan_FindFiles` and `mount_dokan_GetFileInformation` allocate they free, in case of an
  error too (mount_dokan.c:1063-1077, 1193-1224, 1240-1257, 1431-1445 and 1456-1461). -/
structure DokanState where
  contexts : List (Option DokanHandle)
  live : Nat

/-- An operation on a path or on a context given by its number. -/
inductive DokanOp where
  | create (path : Wide) (access disposition : Nat)
  | zwCreate (path : Wide) (access disposition : Nat)
  | openDirectory (path : Wide)
  | read (i size : Nat) (offset : Int)
  | close (i : Nat)
  | find (path : Wide)
  | information (path : Wide) (info : DokanInfo)
  deriving Repr, DecidableEq

/-- The answer to an operation; `opened` has the number of the new context. -/
inductive DokanAnswer where
  | opened (i : Nat)
  | data (b : Bytes)
  | entries (l : List FindData)
  | info (i : DokanInfo)
  | done
  deriving Repr, DecidableEq

/-- The context with the number `i`; NULL if there is none. -/
def DokanState.context (st : DokanState) (i : Nat) : Option DokanHandle := (st.contexts[i]?).join

/-- What becomes of the state when an operation set a context. -/
def dokanOpened (st : DokanState) : DokanRes DokanHandle → DokanRes DokanAnswer × DokanState
  | .ok (.ok h) => (.ok (.ok (.opened st.contexts.length)), ⟨st.contexts ++ [some h], st.live + 1⟩)
  | .ok (.error x) => (.ok (.error x), st)
  | .err => (.err, st)
  | .ub => (.ub, st)
  | .hang => (.hang, st)

/-- An answer without a change. -/
def dokanAnswer {α : Type} (f : α → DokanAnswer) : DokanRes α → DokanRes DokanAnswer
  | .ok (.ok a) => .ok (.ok (f a))
  | .ok (.error x) => .ok (.error x)
  | .err => .err
  | .ub => .ub
  | .hang => .hang

/-- An operation.  `mount_dokan_CloseFile`, mount_dokan.c:708-785, frees the file entry, which sets the
  context to NULL. -/
def dokanStep (env : DokanEnv) (st : DokanState) : DokanOp → DokanRes DokanAnswer × DokanState
  | .create path access disposition => dokanOpened st (createFile env path access disposition none)
  | .zwCreate path access disposition => dokanOpened st (zwCreateFile env path access disposition none)
  | .openDirectory path => dokanOpened st (openDirectory env path none)
  | .read i size offset =>
    let r := dokanRead env size offset (st.context i)
    (dokanAnswer .data r.1, { st with contexts := st.contexts.set i r.2 })
  | .close i =>
    (.ok (.ok .done),
      ⟨st.contexts.set i none, if (st.context i).isSome then st.live - 1 else st.live⟩)
  | .find path =>
    let r := findFiles env path
    (dokanAnswer (fun _ => .entries r.1) r.2, st)
  | .information path info => (dokanAnswer .info (getFileInformation env path info), st)

/-- The state after a history of operations on a new mount. -/
def dokanRun (env : DokanEnv) (ops : List DokanOp) : DokanState :=
  ops.foldl (fun st op => (dokanStep env st op).2) ⟨[], 0⟩

end Olecf
