import Verif.Model.Export

/-
  The messages of an export (olecftools/export_handle.c, log_handle.c).

  The export of Model/Export again, with the messages that it writes to the log file (option -l of olecfexport) and,
  for items that fail, to the standard output.  A message is its kind and what it shows; the texts of the formats are
  not modelled.  The log file is opened for appending before the export (log_handle.c:145-187) and what is
  written to it may fail without notice (log_handle_printf, log_handle.c:248-271): here it is a list.
-/

namespace Olecf

/-- The messages. -/
inductive ExportMessage
  /-- `Processing item: %05d in path: %s/`, export_handle.c:807-812, in the log. -/
  | processing (index : Nat) (dir : Path)
  /-- `Item already exists defaulting to: %s`, export_handle.c:1005-1008, in the log. -/
  | defaulting (name : Bytes)
  /-- `Created directory: %s.`, export_handle.c:1078-1081 and 1557-1560, in the log. -/
  | created (dir : Path)
  /-- `Skipping item: %s it already exists.`, export_handle.c:1149-1152, in the log. -/
  | skipping (file : Path)
  /-- `Unable to export item %d out of %d.` on the standard output and `Unable to export sub item: %d.` in the log,
    export_handle.c:1464-1489. -/
  | unable (number count : Nat)
  deriving DecidableEq

/-- The file system, the result and the messages so far. -/
abbrev Logged (α : Type) := (Disk × Res α) × List ExportMessage

/-- A part without messages. -/
def silent (r : Disk × Res α) : Logged α := (r, [])

/-- Messages before the rest. -/
def saying (l : List ExportMessage) (r : Logged α) : Logged α := (r.1, l ++ r.2)

/-- The next statements, after an `if( ... != 1 ) goto on_error`. -/
def logThen (r : Logged α) (f : Disk → α → Logged β) : Logged β :=
  match r with
  | ((w, .ok a), l) => saying l (f w a)
  | ((w, .err), l) => ((w, .err), l)
  | ((w, .ub), l) => ((w, .ub), l)
  | ((w, .hang), l) => ((w, .hang), l)

/-- `makeItemDirectory` with its messages, export_handle.c:807-1081. -/
def makeItemDirectoryLog (env : ExportEnv) (d : DirEntry) (index : Nat) (dir : Path) (w : Disk) : Logged Path :=
  saying [.processing index dir] <|
    match env.utf8Name d with
    | none => ((w, .err), [])
    | some raw =>
      match env.sanitize raw with
      | none => ((w, .err), [])
      | some name =>
        logThen (silent (fsExists env w (resolve dir name))) fun w found =>
          logThen (silent (pureStep w (if found then fallbackName name index else .ok name))) fun w name =>
            saying (if found then [.defaulting name] else []) <|
              logThen (silent (fsMkdir env w (resolve dir name))) fun w _ =>
                ((w, .ok (resolve dir name)), [.created (resolve dir name)])

/-- `writeItemData` with its messages, export_handle.c:1085-1311. -/
def writeItemDataLog (env : ExportEnv) (d : DirEntry) (dir : Path) (w : Disk) : Logged Bool :=
  logThen (silent (fsExists env w (resolve dir dataName))) fun w found =>
    if found then ((w, .ok false), [.skipping (resolve dir dataName)])
    else logThen (silent (fsCreate env w (resolve dir dataName))) fun w _ =>
      logThen (silent (copyLoop env d (resolve dir dataName) d.size d.size 0 w)) fun w _ =>
        logThen (silent (fsClose env w)) fun w _ => ((w, .ok true), [])

/-- `exportLoop` with its messages, export_handle.c:1434-1505; `count` is the number of sub items. -/
def exportLoopLog (env : ExportEnv) (exportOne : Item → Nat → Disk → Logged Unit) (item : Item) (count : Nat) :
    Nat → Nat → Disk → Logged Unit
  | 0, _, w => ((w, .ok ()), [])
  | n + 1, index, w =>
    logThen (silent (pureStep w (getSubItem env.tree item index))) fun w sub =>
      match exportOne sub index w with
      | ((w, .ok _), l) => saying l (exportLoopLog env exportOne item count n (index + 1) w)
      | ((w, .err), l) =>
        saying (l ++ [.unable (index + 1) count]) (exportLoopLog env exportOne item count n (index + 1) w)
      | ((w, .ub), l) => ((w, .ub), l)
      | ((w, .hang), l) => ((w, .hang), l)

/-- `exportItem` with its messages, export_handle.c:744-1369. -/
def exportItemLog (env : ExportEnv) : Nat → Path → Item → Nat → Disk → Logged Unit
  | 0, _, _, _, w => ((w, .hang), [])
  | fuel + 1, dir, item, index, w =>
    logThen (makeItemDirectoryLog env item.entry index dir w) fun w itemDir =>
      logThen (writeItemDataLog env item.entry itemDir w) fun w written =>
        if written then
          exportLoopLog env (exportItemLog env fuel itemDir) item (numberOfSubItems env.tree item)
            (numberOfSubItems env.tree item) 0 w
        else ((w, .ok ()), [])

/-- `exportFile` with its messages, export_handle.c:1512-1622. -/
def exportFileLog (env : ExportEnv) (fuel : Nat) (dir : Path) (w : Disk) : Logged Unit :=
  logThen (silent (fsMkdir env w dir)) fun w _ =>
    saying [.created dir] <|
      exportLoopLog env (exportItemLog env fuel dir) ⟨none, env.tree.root⟩
        (numberOfSubItems env.tree ⟨none, env.tree.root⟩) (numberOfSubItems env.tree ⟨none, env.tree.root⟩) 0 w

end Olecf
