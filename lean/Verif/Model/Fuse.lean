import Verif.Model.Mount

/-
  olecftools/mount_fuse.c: the operations that libfuse calls for a mounted file.

  Modelled is the build with libfuse on a platform with a 64-bit `off_t`.  `path` and `file_info`
  are never NULL.  libfuse runs the
  operations one after the other (`fuse_loop`, olecfmount.c:447).  The owner fields of
  `struct stat` are left out.
-/

namespace Olecf

/-- The `errno` values that are returned. -/
inductive Errno where
  | einval
  | eacces
  | enoent
  | eio
  deriving Repr, DecidableEq

/-- What an operation returns to libfuse: a value or a negative `errno` value. -/
abbrev FuseRes (α : Type) := Res (Except Errno α)

/-- A mounted file: its tree and what is needed to read its streams, libuna and the names of items
  (see `mountFilename`), and the time of the mount in nanoseconds (`mounted_timestamp`,
  mount_file_system.c:158-206).  `nsec` tells whether `STAT_HAVE_NSEC` is defined (mount_fuse.c:116),
  which the project itself does not. -/
structure FuseEnv where
  k : Codec
  cmp : Bytes → Bytes → Option Bool
  utf8Name : DirEntry → Option Bytes
  tree : Tree
  ctx : FileCtx
  mounted : Int
  nsec : Bool

/-- The part of `struct stat` that is filled; a time is given by its seconds and nanoseconds. -/
structure StatInfo where
  size : Nat
  mode : Nat
  nlink : Nat
  atime : Int × Int
  ctime : Int × Int
  mtime : Int × Int
  deriving Repr, DecidableEq

/-- `mount_file_entry_get_file_mode`, mount_file_entry.c:509-563: `S_IFDIR | 0555` or
  `S_IFREG | 0444`. -/
def fileMode (e : MountEntry) : Nat := if mountIsDirectory e then 0x416d else 0x8124

/-- A time, mount_fuse.c:112-120; the `/` of C rounds towards zero, and the structure was cleared
  before. -/
def timeSpec (nsec : Bool) (ns : Int) : Int × Int :=
  (ns.tdiv 1000000000, if nsec then ns.tmod 1000000000 else 0)

/-- `mount_fuse_set_stat_info`, mount_fuse.c:57-122. -/
def setStatInfo (nsec : Bool) (size mode : Nat) (access change modification : Int) : Res StatInfo :=
  if size > 2 ^ 63 - 1 then .err
  else .ok ⟨size, mode, if mode &&& 0x4000 ≠ 0 then 2 else 1, timeSpec nsec access,
    timeSpec nsec change, timeSpec nsec modification⟩

/-- The attributes of a file entry, as `mount_fuse_filldir`, mount_fuse.c:127-283, and
  `mount_fuse_getattr`, mount_fuse.c:1170-1269, get them.  The access and the inode change time are
  the time of the mount, mount_file_entry.c:364-397 and 471-503. -/
def entryStat (env : FuseEnv) (e : MountEntry) : Res StatInfo :=
  match mountTime e.item.entry.modified with
  | .ok t => setStatInfo env.nsec (mountSize e) (fileMode e) env.mounted env.mounted t
  | .err => .err
  | .ub => .ub
  | .hang => .hang

/-- An open file or directory (`file_info->fh`): the file entry and the current offset of the item
  that it owns. -/
structure FuseHandle where
  entry : MountEntry
  cur : Int

/-- The part that `mount_fuse_open`, mount_fuse.c:357-374, and `mount_fuse_opendir`,
  mount_fuse.c:633-650, have in common.  The current offset of a new item is 0. -/
def fuseLookup (env : FuseEnv) (path : Bytes) : FuseRes FuseHandle :=
  match mountEntryByPath env.k env.cmp (some env.tree) path with
  | .ok (some e) => .ok (.ok ⟨e, 0⟩)
  | .ok none => .ok (.error .enoent)
  | .err => .ok (.error .enoent)
  | .ub => .ub
  | .hang => .hang

/-- `mount_fuse_open`, mount_fuse.c:288-386, with the file handle `fh` on entry; `O_RDONLY` is 0. -/
def fuseOpen (env : FuseEnv) (path : Bytes) (flags : Nat) (fh : Option FuseHandle) :
    FuseRes FuseHandle :=
  if fh.isSome then .ok (.error .einval)
  else if flags % 4 ≠ 0 then .ok (.error .eacces)
  else fuseLookup env path

/-- `mount_fuse_opendir`, mount_fuse.c:577-662. -/
def fuseOpendir (env : FuseEnv) (path : Bytes) (fh : Option FuseHandle) : FuseRes FuseHandle :=
  if fh.isSome then .ok (.error .einval) else fuseLookup env path

/-- `mount_fuse_read`, mount_fuse.c:391-495: the bytes in the buffer (their number is the return
  value) and the file handle afterwards. -/
def fuseRead (env : FuseEnv) (size : Nat) (offset : Int) (fh : Option FuseHandle) :
    FuseRes Bytes × Option FuseHandle :=
  if size > 2 ^ 31 - 1 then (.ok (.error .einval), fh)
  else match fh with
    | none => (.ok (.error .einval), none)
    | some h =>
      let r := mountRead env.ctx h.entry h.cur size offset
      let fh := some { h with cur := r.2 }
      match r.1.res with
      | .ok data => (.ok (.ok data), fh)
      | .err => (.ok (.error .eio), fh)
      | .ub => (.ub, fh)
      | .hang => (.hang, fh)

/-- An entry passed to the callback of libfuse. -/
structure DirItem where
  name : Bytes
  stat : StatInfo
  deriving Repr, DecidableEq

/-- `mount_fuse_filldir`, mount_fuse.c:127-283, for a file entry or NULL.  That the callback accepts
  the entry is assumed. -/
def fillDir (env : FuseEnv) (name : Bytes) (e : Option MountEntry) : Res DirItem :=
  match (match e with
    | some e => entryStat env e
    | none => setStatInfo env.nsec 0 0 0 0 0) with
  | .ok s => .ok ⟨name, s⟩
  | .err => .err
  | .ub => .ub
  | .hang => .hang

/-- The loop of `mount_fuse_readdir` over the sub entries, mount_fuse.c:852-965: the entries from
  `index` on. -/
def readdirLoop (env : FuseEnv) (e : MountEntry) : Nat → Nat → Res (List DirItem)
  | 0, _ => .ok []
  | n + 1, index =>
    match mountSubEntry env.k env.utf8Name env.tree e index with
    | .ok s => match fillDir env s.name (some s) with
      | .ok d => match readdirLoop env e n (index + 1) with
        | .ok rest => .ok (d :: rest)
        | .err => .err
        | .ub => .ub
        | .hang => .hang
      | .err => .err
      | .ub => .ub
      | .hang => .hang
    | .err => .err
    | .ub => .ub
    | .hang => .hang

/-- `mount_fuse_readdir`, mount_fuse.c:667-1002: the entries passed to the callback.
  `mount_file_entry_get_parent_file_entry`, mount_file_entry.c:248-290, never has a parent. -/
def fuseReaddir (env : FuseEnv) (fh : Option FuseHandle) : FuseRes (List DirItem) :=
  match fh with
  | none => .ok (.error .einval)
  | some h =>
    match fillDir env [0x2e] (some h.entry) with
    | .ok self => match fillDir env [0x2e, 0x2e] none with
      | .ok parent =>
        match readdirLoop env h.entry (numberOfSubItems env.tree h.entry.item) 0 with
        | .ok l => .ok (.ok (self :: parent :: l))
        | .err => .ok (.error .eio)
        | .ub => .ub
        | .hang => .hang
      | .err => .ok (.error .eio)
      | .ub => .ub
      | .hang => .hang
    | .err => .ok (.error .eio)
    | .ub => .ub
    | .hang => .hang

/-- `mount_fuse_getattr`, mount_fuse.c:1070-1302. -/
def fuseGetattr (env : FuseEnv) (path : Bytes) : FuseRes StatInfo :=
  match mountEntryByPath env.k env.cmp (some env.tree) path with
  | .ok (some e) => match entryStat env e with
    | .ok s => .ok (.ok s)
    | .err => .ok (.error .eio)
    | .ub => .ub
    | .hang => .hang
  | .ok none => .ok (.error .enoent)
  | .err => .ok (.error .enoent)
  | .ub => .ub
  | .hang => .hang

/-! ### Histories of operations -/

/-- The state of a mount: the file handles that libfuse keeps (`file_info->fh`), and how many file
  entries are allocated.  The entries that `mount_fuse_readdir` and `mount_fuse_getattr` allocate
  they free, in case of an error too (mount_fuse.c:949-964, 984-995, 1270-1284 and 1295-1300). -/
structure FuseState where
  handles : List (Option FuseHandle)
  live : Nat

/-- An operation on a path or on a file handle given by its number. -/
inductive FuseOp where
  | open (path : Bytes) (flags : Nat)
  | read (i size : Nat) (offset : Int)
  | release (i : Nat)
  | opendir (path : Bytes)
  | readdir (i : Nat)
  | releasedir (i : Nat)
  | getattr (path : Bytes)
  deriving Repr, DecidableEq

/-- The answer to an operation; `opened` has the number of the new file handle. -/
inductive FuseAnswer where
  | opened (i : Nat)
  | data (b : Bytes)
  | entries (l : List DirItem)
  | stat (s : StatInfo)
  | done
  deriving Repr, DecidableEq

/-- The file handle with the number `i`; NULL if there is none. -/
def FuseState.handle (st : FuseState) (i : Nat) : Option FuseHandle := (st.handles[i]?).join

/-- What becomes of the state when an operation made a file handle: libfuse passes a `file_info` with
  `fh` NULL, and keeps it if the operation returned 0. -/
def fuseOpened (st : FuseState) : FuseRes FuseHandle → FuseRes FuseAnswer × FuseState
  | .ok (.ok h) => (.ok (.ok (.opened st.handles.length)), ⟨st.handles ++ [some h], st.live + 1⟩)
  | .ok (.error x) => (.ok (.error x), st)
  | .err => (.err, st)
  | .ub => (.ub, st)
  | .hang => (.hang, st)

/-- An answer without a change. -/
def fuseAnswer {α : Type} (f : α → FuseAnswer) : FuseRes α → FuseRes FuseAnswer
  | .ok (.ok a) => .ok (.ok (f a))
  | .ok (.error x) => .ok (.error x)
  | .err => .err
  | .ub => .ub
  | .hang => .hang

/-- An operation.  `mount_fuse_release`, mount_fuse.c:500-572, frees the file entry;
  `mount_fuse_releasedir`, mount_fuse.c:1007-1065, only clears the file handle. -/
def fuseStep (env : FuseEnv) (st : FuseState) : FuseOp → FuseRes FuseAnswer × FuseState
  | .open path flags => fuseOpened st (fuseOpen env path flags none)
  | .opendir path => fuseOpened st (fuseOpendir env path none)
  | .read i size offset =>
    let r := fuseRead env size offset (st.handle i)
    (fuseAnswer .data r.1, { st with handles := st.handles.set i r.2 })
  | .readdir i => (fuseAnswer .entries (fuseReaddir env (st.handle i)), st)
  | .getattr path => (fuseAnswer .stat (fuseGetattr env path), st)
  | .release i =>
    (.ok (.ok .done), ⟨st.handles.set i none, if (st.handle i).isSome then st.live - 1 else st.live⟩)
  | .releasedir i => (.ok (.ok .done), ⟨st.handles.set i none, st.live⟩)

/-- The state after a history of operations on a new mount. -/
def fuseRun (env : FuseEnv) (ops : List FuseOp) : FuseState :=
  ops.foldl (fun st op => (fuseStep env st op).2) ⟨[], 0⟩

end Olecf
