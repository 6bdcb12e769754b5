import Verif.Model.Programs
import Verif.Model.Fuse

/-
  The program olecfmount from its arguments to its end: olecftools/olecfmount.c, on a POSIX system with
  libfuse and narrow system characters.

  Left out are what is printed, the extended options that are handed to libfuse, and what the kernel does
  with the mount point.
-/

namespace Olecf

/-- What the program depends on besides `Programs`: the encoder of libuna (see `Codec`), the time of the
  mount and `STAT_HAVE_NSEC` (see `FuseEnv`), and which calls of libfuse fail. -/
structure FuseLib where
  encode : Nat → Option Bytes
  now : Int
  nsec : Bool
  addArg : Bool := false
  new : Bool := false
  mount : Bool := false
  daemonize : Bool := false
  loop : Bool := false

/-- The name of an item, mount_file_system.c:508-598: it is copied to a string of the size asked for
  before, and used without the last character of that string. -/
def mountItemName (u : Libuna) (io : IoHandle) (d : DirEntry) : Option Bytes :=
  match itemUtf8NameSize u io ⟨none, d⟩ with
  | .ok size =>
    if size = 0 ∨ size > ssizeMax then none
    else match itemUtf8Name u io ⟨none, d⟩ (some size) with
      | .ok name => some (name.take (size - 1))
      | _ => none
  | _ => none

/-- What libfuse answers requests with: `env` is what the operations work on, see Model/Fuse.  It is absent
  for a file without a root item: no path is found then (`mount_file_system_get_item_by_path`,
  mount_file_system.c:387-480), every open and every getattr fails with `ENOENT`. -/
structure Mounted where
  point : Bytes
  env : Option FuseEnv
  background : Bool

/-- The file system of `mount_handle_initialize`, mount_handle.c:41-123, with the file that
  `mount_handle_open`, mount_handle.c:267-359, opened and set (`mount_file_system_set_file`,
  mount_file_system.c:285-306). -/
def Programs.mountEnv (p : Programs) (lib : FuseLib) (dev : Dev) (file : OleFile) : Option FuseEnv :=
  match file.tree, file.ctx dev with
  | some t, some f => some
    { k := ⟨p.u.dec8, lib.encode⟩
      cmp := p.u.cmp8 file.io.byteOrder
      utf8Name := mountItemName p.u file.io
      tree := t
      ctx := f
      mounted := lib.now
      nsec := lib.nsec }
  | _, _ => none

/-- `main` of olecfmount from line 271 on, olecfmount.c:271-466 and 633-660: what requests are answered
  with, if any are, and the exit status.  `mount_handle_open` is `Programs.openInput`, and
  `mount_handle_set_ascii_codepage`, mount_handle.c:208-262, is `Programs.setCodepage`.  The program runs
  in the background unless -v is given.  The file is not closed at the end (`mount_fuse_destroy`,
  mount_fuse.c:1306-1349, frees the handle only). -/
def Programs.mountRun (p : Programs) (lib : FuseLib) (s : Settings) (source point : Bytes) :
    Option Mounted × Res Unit :=
  match p.setCodepage s.codepage with
  | .ok () =>
    match (p.openInput source).1 with
    | .ok () =>
      if s.extended.isSome ∧ lib.addArg then (none, .err)
      else if lib.new ∨ lib.mount then (none, .err)
      else if s.verbose = false ∧ lib.daemonize then (none, .err)
      else
        (some ⟨point, p.mountEnv lib (p.source source).1 (p.openInput source).2.file, !s.verbose⟩,
          if lib.loop then .err else .ok ())
    | .err => (none, .err)
    | .ub => (none, .ub)
    | .hang => (none, .hang)
  | .err => (none, .err)
  | .ub => (none, .ub)
  | .hang => (none, .hang)

/-- `main` of olecfmount, olecfmount.c:132-660. -/
def Programs.mountMain (p : Programs) (lib : FuseLib) (args : List Bytes) : Option Mounted × Res Unit :=
  match Tool.command .olecfmount args with
  | .ok (.run s source (some point)) => p.mountRun lib s source point
  | .ok c => (none, (p.notRun c).2)
  | .err => (none, .err)
  | .ub => (none, .ub)
  | .hang => (none, .hang)

end Olecf
