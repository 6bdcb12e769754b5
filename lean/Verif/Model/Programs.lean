import Verif.Model.Getopt
import Verif.Model.InfoSet

/-
  The programs olecfinfo and olecfexport from their arguments to their end: olecftools/olecfinfo.c and
  olecftools/olecfexport.c, on a POSIX system with narrow system characters.

  Left out are what is printed to stderr, the version line that is printed first, the lines "Opening file."
  and the like of olecfexport, and the log file of olecfexport.
-/

namespace Olecf

/-- What the programs depend on. -/
structure Programs where
  u : Libuna
  libs : InfoLibs
  signedChar : Bool
  /-- `libclocale_codepage_copy_from_string`: `ok none` is the return value 0, an unsupported code page. -/
  codepageOf : Bytes → Res (Option Int)
  /-- What the file of a name delivers, and which calls of libbfio fail for it. -/
  source : Bytes → Dev × Faults
  /-- The text of `usage_fprint` and of `olecftools_output_copyright_fprint`. -/
  usage : Bytes
  copyright : Bytes
  /-- `libcpath_path_get_sanitized_filename`, see `ExportEnv`. -/
  sanitize : Bytes → Option Bytes
  /-- The operations on the file system that fail for reasons outside of the program. -/
  fault : Nat → Bool
  /-- The current directory. -/
  cwd : Path
  /-- How much of the data is written by a write that fails. -/
  cut : Nat → Nat := fun _ => 0

/-- Handles before the program made any. -/
def World.fresh : World := ⟨fun _ => false, fun _ => Dev.ofBytes [], 0, []⟩

/-- The byte order that the header of a file gives; when names are compared while the file is opened, it
  was read already (libolecf_file.c:941, libolecf_directory_tree.c:334-387).  The IO handle that
  `libolecf_file_open_read` leaves behind has it, whatever the comparison of names is. -/
def fileOrder (dev : Dev) : Endian := (openCore (fun _ _ => none) dev .cleared).2.byteOrder

/-- `info_handle_open_input`, info_handle.c:281-327, and `export_handle_open_input`,
  export_handle.c:664-711: with the file that `info_handle_initialize` (info_handle.c:50-125) or
  `export_handle_initialize` (export_handle.c:42-117) made, and `LIBOLECF_OPEN_READ`. -/
def Programs.openInput (p : Programs) (source : Bytes) : Res Unit × FileState :=
  openName (p.u.cmp8 (fileOrder (p.source source).1)) (p.source source).1 1 (p.source source).2
    ⟨OleFile.new, .fresh⟩

/-- `info_handle_set_ascii_codepage`, info_handle.c:223-276, and `export_handle_set_ascii_codepage`,
  export_handle.c:228-281, with olecfinfo.c:245-267 and olecfexport.c:337-359.  The code page is stored in
  the field `ascii_codepage` of the handle of the program, which nothing reads; it is left out. -/
def Programs.setCodepage (p : Programs) (option : Option Bytes) : Res Unit :=
  match option with
  | none => .ok ()
  | some string =>
    match p.codepageOf string with
    | .ok _ => .ok ()
    | .err => .err
    | .ub => .ub
    | .hang => .hang

/-- A directory tree that is not looked at. -/
def Tree.unused : Tree :=
  ⟨⟨0, 0, [], 0, 0, 0, 0, 0, 0, 0⟩, fun _ => []⟩

/-- `main` of olecfinfo from line 230 on, olecfinfo.c:230-356: what is printed to stdout; `ok` is
  `EXIT_SUCCESS` and `err` is `EXIT_FAILURE`. -/
def Programs.infoRun (p : Programs) (fuel : Nat) (s : Settings) (source : Bytes) : Printed Unit :=
  printThen (quiet (p.setCodepage s.codepage)) fun _ =>
    printThen (quiet (p.openInput source).1) fun _ =>
      let st := (p.openInput source).2
      match st.file.ctx (p.source source).1 with
      | none => quiet .err
      | some f =>
        printThen (infoMain ⟨p.u, st.file.io, st.file.tree.getD .unused, p.signedChar⟩ p.libs st.file f
          fuel s.allocation (rootItem st.file.tree)) fun _ => quiet (closeFile (p.source source).2 st).1

/-- The outcome of a command line that is not run. -/
def Programs.notRun (p : Programs) (c : Command) : Printed Unit :=
  match c with
  | .usage => (p.usage, .ok ())
  | .version => (p.copyright, .ok ())
  | _ => (p.usage, .err)

/-- `main` of olecfinfo, olecfinfo.c:129-378. -/
def Programs.info (p : Programs) (fuel : Nat) (args : List Bytes) : Printed Unit :=
  printThen (quiet (Tool.command .olecfinfo args)) fun c =>
    match c with
    | .run s source _ => p.infoRun fuel s source
    | c => p.notRun c

/-! ### olecfexport -/

/-- The part of a string behind its last separator, olecfexport.c:254-273. -/
def lastComponent (s : Bytes) : Bytes := ((components s).getLast?).getD []

/-- The path that a string refers to. -/
def pathOf (cwd : Path) (s : Bytes) : Path :=
  resolve (if s.head? = some 0x2f then [] else cwd) s

/-- The export without an open file: only which operations fail matters. -/
def Programs.closedEnv (p : Programs) : ExportEnv where
  ctx := ⟨.cleared, Dev.ofBytes [], ⟨[]⟩, ⟨[]⟩⟩
  tree := .unused
  utf8Name _ := none
  sanitize := p.sanitize
  fault := p.fault
  cut := p.cut

/-- The name of an item, export_handle.c:816-875: it is copied to a string of the size asked for before;
  what is used of it has one character less than that size. -/
def exportName (u : Libuna) (io : IoHandle) (d : DirEntry) : Option Bytes :=
  match itemUtf8NameSize u io ⟨none, d⟩ with
  | .ok size =>
    match itemUtf8Name u io ⟨none, d⟩ (some size) with
    | .ok name => some (name.take (size - 1))
    | _ => none
  | _ => none

/-- `export_handle_export_file`, export_handle.c:1512-1622, for the file that was opened. -/
def Programs.exportOpened (p : Programs) (fuel : Nat) (dir : Path) (dev : Dev) (st : FileState)
    (w : Disk) : Disk × Res Unit :=
  match st.file.tree, st.file.ctx dev with
  | some t, some f => exportFile ⟨f, t, exportName p.u st.file.io, p.sanitize, p.fault, p.cut⟩ fuel dir w
  | _, _ => fsMkdir p.closedEnv w dir

/-- `main` of olecfexport from line 250 on, olecfexport.c:250-425, with `export_handle_set_target_path`
  (export_handle.c:286-407), `export_handle_set_export_path` (412-583) and
  `export_handle_create_items_export_path` (588-659): an empty target leaves the target path `NULL`, which
  is refused. -/
def Programs.exportRun (p : Programs) (fuel : Nat) (s : Settings) (source : Bytes) (w : Disk) :
    Disk × Res Unit :=
  let target := s.target.getD (lastComponent source)
  if target = [] then (w, .err)
  else
    let dir := pathOf p.cwd (target ++ ascii ".export")
    diskThen (fsExists p.closedEnv w dir) fun w found =>
      if found then (w, .err)
      else
        diskThen (pureStep w (p.setCodepage s.codepage)) fun w _ =>
          diskThen (pureStep w (p.openInput source).1) fun w _ =>
            diskThen (p.exportOpened fuel dir (p.source source).1 (p.openInput source).2 w) fun w _ =>
              (w, (closeFile (p.source source).2 (p.openInput source).2).1)

/-- `main` of olecfexport, olecfexport.c:129-458. -/
def Programs.exportMain (p : Programs) (fuel : Nat) (args : List Bytes) (w : Disk) : Disk × Res Unit :=
  diskThen (pureStep w (Tool.command .olecfexport args)) fun w c =>
    match c with
    | .run s source _ => p.exportRun fuel s source w
    | c => (w, (p.notRun c).2)

end Olecf
