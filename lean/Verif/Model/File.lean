import Verif.Model.Stream
import Verif.Model.Tree
import Verif.Model.Header
import Verif.Model.Tables

/-
  libolecf/libolecf_file.c
  libolecf/libolecf_support.c: libolecf_check_file_signature_file_io_handle
-/

namespace Olecf

/-- A failed outcome of one function as the outcome of its caller. -/
def Res.failed : Res α → Res β
  | .ok _ => .err
  | .err => .err
  | .ub => .ub
  | .hang => .hang

/-- One step of `libolecf_file_open_read` and what follows it; `io` is the IO handle that a failed
  step leaves behind. -/
def Out.andThen (io : IoHandle) (o : Out α) (f : α → Out β × IoHandle) : Out β × IoHandle :=
  match o.res with
  | .ok a => (⟨o.reads ++ (f a).1.reads, (f a).1.res⟩, (f a).2)
  | r => (⟨o.reads, r.failed⟩, io)

/-! ### File IO handles -/

/-- A libbfio handle: made by the caller or by the library. -/
inductive HandleId where
  | user (n : Nat)
  | lib (n : Nat)
  deriving Repr, DecidableEq

/-- What the library does to handles, in order. -/
inductive HandleEvent where
  | created (h : HandleId)
  | opened (h : HandleId)
  | closed (h : HandleId)
  | closeFailed (h : HandleId)
  | freed (h : HandleId)
  deriving Repr, DecidableEq

/-- The handles: which are open; what each one delivers when it is open; the number of handles the
  library has made so far; the events so far. -/
structure World where
  isOpen : HandleId → Bool
  dev : HandleId → Dev
  made : Nat
  events : List HandleEvent

/-- Which libbfio calls fail (return -1) during one call of the library: any combination.
  Contract assumed of libbfio: a call that fails does not change the state of the handle. -/
structure Faults where
  create : Bool := false
  setName : Bool := false
  isOpen : Bool := false
  opening : Bool := false
  closing : Bool := false
  free : Bool := false

/-- `libbfio_handle_open`: success, and the handles afterwards. -/
def World.openH (w : World) (flt : Faults) (h : HandleId) : Bool × World :=
  if flt.opening then (false, w)
  else (true, { w with isOpen := fun k => if k = h then true else w.isOpen k,
                       events := w.events ++ [.opened h] })

/-- `libbfio_handle_close`: success, and the handles afterwards.  It fails on a handle that is not
  open. -/
def World.closeH (w : World) (flt : Faults) (h : HandleId) : Bool × World :=
  if flt.closing || !w.isOpen h then (false, { w with events := w.events ++ [.closeFailed h] })
  else (true, { w with isOpen := fun k => if k = h then false else w.isOpen k,
                       events := w.events ++ [.closed h] })

/-- `libbfio_handle_free`: the handle and what it holds are gone, whatever it returns. -/
def World.freeH (w : World) (h : HandleId) : World :=
  { w with isOpen := fun k => if k = h then false else w.isOpen k,
           events := w.events ++ [.freed h] }

/-- `libbfio_file_initialize` and `libbfio_file_set_name`: a new handle, not open, for a file that
  delivers `dev`. -/
def World.createH (w : World) (dev : Dev) : HandleId × World :=
  (.lib w.made,
    { isOpen := fun k => if k = .lib w.made then false else w.isOpen k
      dev := fun k => if k = .lib w.made then dev else w.dev k
      made := w.made + 1
      events := w.events ++ [.created (.lib w.made)] })

/-! ### The file object -/

/-- `libolecf_internal_file_t`, libolecf_file.h:43-89.  `unallocated_block_list` is never set in
  the library, and the two summary information pointers are never read; they are left out. -/
structure OleFile where
  io : IoHandle
  abort : Bool
  handle : Option HandleId
  openedInLibrary : Bool
  createdInLibrary : Bool
  msat : Option AllocTable
  sat : Option AllocTable
  ssat : Option AllocTable
  tree : Option Tree

/-- `libolecf_io_handle_clear`, libolecf_io_handle.c:161-195, and the state
  `libolecf_io_handle_initialize` makes.  The cleared byte order is 0 in the code, which is not a
  value of the model; it is not used before the next header was read. -/
def IoHandle.cleared : IoHandle :=
  { majorVersion := 0, minorVersion := 0, sectorSize := 0, shortSectorSize := 0, minStreamSize := 0,
    byteOrder := .little, shortStreamStart := 0, codepage := 1252 }

/-- `libolecf_file_initialize`, libolecf_file.c:48-129. -/
def OleFile.new : OleFile :=
  { io := .cleared, abort := false, handle := none, openedInLibrary := false,
    createdInLibrary := false, msat := none, sat := none, ssat := none, tree := none }

/-- The assignments libolecf_file.c:941-946. -/
def IoHandle.withHeader (io : IoHandle) (h : FileHeader) : IoHandle :=
  { io with byteOrder := h.byteOrder, majorVersion := h.majorVersion,
            minorVersion := h.minorVersion, minStreamSize := h.minStreamSize,
            sectorSize := h.sectorSize, shortSectorSize := h.shortSectorSize }

/-- The assignment of `libolecf_directory_tree_create` to
  `short_sector_stream_start_sector_identifier`. -/
def IoHandle.withShortStart (io : IoHandle) (s : Option Nat) : IoHandle :=
  match s with
  | some s => { io with shortStreamStart := s }
  | none => io

/-- What `libolecf_file_open_read` loads. -/
structure Loaded where
  msat : AllocTable
  sat : AllocTable
  ssat : AllocTable
  tree : Option Tree

/-- `libolecf_file_open_read`, libolecf_file.c:880-1189: the outcome, the device reads and the IO
  handle left behind.  `cmp` is the name comparison of libuna, see `summaryCheck`. -/
def openCore (cmp : Bytes → Bytes → Option Bool) (dev : Dev) (io : IoHandle) :
    Out Loaded × IoHandle :=
  match AllocTable.init 109, AllocTable.init 0 with
  | .ok msat, .ok empty =>
    Out.andThen io (headerRead dev msat) fun (hdr, msat) =>
    let io := io.withHeader hdr
    Out.andThen io (readMsat io dev msat hdr.msatSector hdr.msatSectors) fun msat =>
    Out.andThen io (readSat io dev msat empty hdr.satSectors) fun sat =>
    Out.andThen io (readSsat io dev sat empty hdr.ssatSector hdr.ssatSectors) fun ssat =>
    let dir := readDirectory io dev sat [] hdr.rootDirSector
    Out.andThen io dir.1 fun _ =>
    let t := createTree dir.2 cmp
    let io := io.withShortStart t.shortStart
    Out.andThen io (.of t.res) fun tree => (.of (.ok ⟨msat, sat, ssat, tree.map (·.1)⟩), io)
  | _, _ => (.of .err, io)

/-- `libolecf_file_open_read`, libolecf_file.c:805-1189: with the checks of lines 830-879 and the
  file object afterwards.  On failure everything that was made is freed again (lines 1142-1188);
  the fields of the IO handle stay as they are. -/
def openRead (cmp : Bytes → Bytes → Option Bool) (dev : Dev) (file : OleFile) :
    Out Unit × OleFile :=
  if file.msat.isSome ∨ file.sat.isSome ∨ file.ssat.isSome ∨ file.tree.isSome then
    (.of .err, file)
  else
    let (out, io) := openCore cmp dev file.io
    match out.res with
    | .ok l =>
      (⟨out.reads, .ok ()⟩,
        { file with io := io, msat := some l.msat, sat := some l.sat, ssat := some l.ssat,
                    tree := l.tree })
    | r => (⟨out.reads, r.failed⟩, { file with io := io })

/-- `LIBOLECF_ACCESS_FLAG_READ`, `LIBOLECF_ACCESS_FLAG_WRITE`. -/
def flagRead (flags : Nat) : Bool := flags % 2 = 1
def flagWrite (flags : Nat) : Bool := flags / 2 % 2 = 1

/-- The state of one file object and of the handles. -/
structure FileState where
  file : OleFile
  world : World

/-- `libolecf_file_open_file_io_handle`, libolecf_file.c:473-610.  The return value of the close of
  line 602 is not used. -/
def openHandle (cmp : Bytes → Bytes → Option Bool) (h : HandleId) (flags : Nat) (flt : Faults)
    (st : FileState) : Res Unit × FileState :=
  if st.file.handle.isSome then (.err, st)
  else if !flagRead flags && !flagWrite flags then (.err, st)
  else if flagWrite flags then (.err, st)
  else if flt.isOpen then (.err, ⟨{ st.file with handle := none }, st.world⟩)
  else
    let wasOpen := st.world.isOpen h
    let (opened, world) := if wasOpen then (true, st.world) else st.world.openH flt h
    if !opened then
      -- on_error; the flag is not set, so the handle is not closed
      (.err, ⟨{ st.file with handle := none }, world⟩)
    else
      let file := if wasOpen then st.file else { st.file with openedInLibrary := true }
      let (out, file) := openRead cmp (world.dev h) file
      match out.res with
      | .ok _ => (.ok (), ⟨{ file with handle := some h }, world⟩)
      | r =>
        -- on_error
        if !wasOpen && file.openedInLibrary then
          (r.failed, ⟨{ file with openedInLibrary := false, handle := none }, (world.closeH flt h).2⟩)
        else (r.failed, ⟨{ file with handle := none }, world⟩)

/-- `libolecf_file_open`, libolecf_file.c:239-349; `dev` is what the file of that name delivers. -/
def openName (cmp : Bytes → Bytes → Option Bool) (dev : Dev) (flags : Nat) (flt : Faults)
    (st : FileState) : Res Unit × FileState :=
  if flt.create then (.err, st)
  else
    let (h, world) := st.world.createH dev
    if flt.setName then (.err, ⟨st.file, world.freeH h⟩)
    else
      let (r, st) := openHandle cmp h flags flt ⟨st.file, world⟩
      match r with
      | .ok _ => (.ok (), ⟨{ st.file with createdInLibrary := true }, st.world⟩)
      | r => (r.failed, ⟨st.file, st.world.freeH h⟩)

/-- `libolecf_file_close`, libolecf_file.c:615-800.  Freeing the tables and the tree does not
  fail. -/
def closeFile (flt : Faults) (st : FileState) : Res Unit × FileState :=
  match st.file.handle with
  | none => (.err, st)
  | some h =>
    let (ok1, world) := if st.file.openedInLibrary then st.world.closeH flt h else (true, st.world)
    let (ok2, world) := if st.file.createdInLibrary then (!flt.free, world.freeH h) else (true, world)
    (if ok1 && ok2 then .ok () else .err,
      ⟨{ io := .cleared, abort := false, handle := none, openedInLibrary := false,
         createdInLibrary := false, msat := none, sat := none, ssat := none, tree := none }, world⟩)

/-- `libolecf_file_free`, libolecf_file.c:134-195: the outcome and the handles afterwards. -/
def freeFile (flt : Faults) (st : FileState) : Res Unit × World :=
  match st.file.handle with
  | none => (.ok (), st.world)
  | some _ => ((closeFile flt st).1, (closeFile flt st).2.world)

/-- `libolecf_file_signal_abort`, libolecf_file.c:200-234. -/
def signalAbort (file : OleFile) : OleFile := { file with abort := true }

/-- The code pages `libolecf_file_set_ascii_codepage` accepts, libolecf_file.c:1398-1412. -/
def codepages : List Int :=
  [20127, 874, 932, 936, 949, 950, 1250, 1251, 1252, 1253, 1254, 1255, 1256, 1257, 1258]

/-- `libolecf_file_set_ascii_codepage`, libolecf_file.c:1369-1429. -/
def setCodepage (file : OleFile) (cp : Int) : Res Unit × OleFile :=
  if cp ∉ codepages then (.err, file)
  else (.ok (), { file with io := { file.io with codepage := cp } })

/-- `libolecf_file_get_ascii_codepage`, libolecf_file.c:1318-1364. -/
def getCodepage (file : OleFile) : Int := file.io.codepage

/-- `libolecf_file_get_sector_size`, libolecf_file.c:1194-1251. -/
def getSectorSize (file : OleFile) : Res Nat :=
  if file.io.sectorSize > 2 ^ 32 - 1 then .err else .ok file.io.sectorSize

/-- `libolecf_file_get_short_sector_size`, libolecf_file.c:1256-1313. -/
def getShortSectorSize (file : OleFile) : Res Nat :=
  if file.io.shortSectorSize > 2 ^ 32 - 1 then .err else .ok file.io.shortSectorSize

/-- `libolecf_file_get_format_version`, libolecf_file.c:1434-1493. -/
def getFormatVersion (file : OleFile) : Nat × Nat := (file.io.majorVersion, file.io.minorVersion)

/-- The part of an open file that stream reads use: `libolecf_item_initialize` keeps pointers to
  the IO handle, the file IO handle and the file (libolecf_item.c:41-165). -/
def OleFile.ctx (file : OleFile) (dev : Dev) : Option FileCtx :=
  match file.sat, file.ssat with
  | some sat, some ssat => some ⟨file.io, dev, sat, ssat⟩
  | _, _ => none

/-! ### The signature check -/

/-- `libolecf_check_file_signature_file_io_handle`, libolecf_support.c:324-435: `ok true` is the
  return value 1, `ok false` is 0. -/
def checkSignature (h : HandleId) (flt : Faults) (w : World) : Res Bool × World :=
  if flt.isOpen then (.err, w)
  else
    let wasOpen := w.isOpen h
    let (opened, world) := if wasOpen then (true, w) else w.openH flt h
    let onError (world : World) : Res Bool × World :=
      if !wasOpen then (.err, (world.closeH flt h).2) else (.err, world)
    if !opened then onError world
    else match (world.dev h).get 0 8 with
      | none => onError world
      | some sig =>
        let (closed, world) := if !wasOpen then world.closeH flt h else (true, world)
        if !closed then onError world
        else if sig = fileSignature then (.ok true, world)
        else if sig = betaFileSignature then (.ok true, world)
        else (.ok false, world)

/-- `libolecf_check_file_signature`, libolecf_support.c:109-206, for a non-empty name of a file that
  delivers `dev`. -/
def checkSignatureName (dev : Dev) (flt : Faults) (w : World) : Res Bool × World :=
  if flt.create then (.err, w)
  else
    let (h, world) := w.createH dev
    if flt.setName then (.err, world.freeH h)
    else
      let (r, world) := checkSignature h flt world
      match r with
      | .ok b => (if flt.free then .err else .ok b, world.freeH h)
      | r => (r.failed, world.freeH h)

end Olecf
