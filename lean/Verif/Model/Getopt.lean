import Verif.Model.Base

/-
  The command line of the tools.  Strings are lists of their characters without the terminator.
-/

namespace Olecf

/-- A pointer into a string: the characters from there on, or `none` behind the terminator. -/
abbrev StrPtr := Option Bytes

/-- `*p`: the character, 0 at the terminator.  Behind the terminator: undefined. -/
def StrPtr.char : StrPtr → Res UInt8
  | none => .ub
  | some [] => .ok 0
  | some (c :: _) => .ok c

/-- `p++`. -/
def StrPtr.next : StrPtr → StrPtr
  | some (_ :: r) => some r
  | _ => none

/-- The variables `optind`, `optarg` and `next_option`, olecftools_getopt.c:36-52. -/
structure GetoptState where
  optind : Nat
  optarg : Option Bytes
  next : StrPtr
  deriving DecidableEq

def GetoptState.initial : GetoptState := ⟨1, none, none⟩

/-- `olecftools_getopt` from line 105 on, olecftools_getopt.c:105-186, for the character at `p`.
  `narrow_string_search_character` is memchr (common/narrow_string.h:109-111): the terminator is not
  searched. -/
def getoptChar (args : List Bytes) (opts : Bytes) (p : StrPtr) (st : GetoptState) :
    Res (Option UInt8 × GetoptState) := do
  let o ← p.char
  let found := opts.dropWhile (· != o)
  let p := p.next
  if o = 58 ∨ found = [] then
    let c ← p.char
    .ok (some 63, if c = 0 then { st with optind := st.optind + 1 } else st)
  else if (found.drop 1).headD 0 ≠ 58 then
    let c ← p.char
    .ok (some o, if c = 0 then { st with optarg := none, optind := st.optind + 1 }
      else { st with optarg := none, next := p })
  else
    let c ← p.char
    if c ≠ 0 then .ok (some o, { st with optarg := p, optind := st.optind + 1 })
    else if args.length ≤ st.optind + 1 then .ok (some 58, { st with optind := st.optind + 1 })
    else match args[st.optind + 1]? with
      | none => .ub
      | some v => .ok (some o, { st with optarg := some v, optind := st.optind + 1 + 1 })

/-- `olecftools_getopt`, olecftools_getopt.c:59-187: the character that is returned, `none` for -1.  The
  messages of lines 127-130 and 172-175 are left out. -/
def getopt (args : List Bytes) (opts : Bytes) (st : GetoptState) : Res (Option UInt8 × GetoptState) :=
  match st.next with
  | some p => getoptChar args opts (some p) { st with next := none }
  | none =>
    if args.length ≤ st.optind then .ok (none, st)
    else match args[st.optind]? with
      | none => .ub
      | some a => do
        let c ← StrPtr.char (some a)
        if c = 0 then .ok (none, st)
        else if c ≠ 45 then .ok (none, st)
        else
          let p := StrPtr.next (some a)
          let c ← p.char
          if c = 45 then .ok (none, { st with optind := st.optind + 1 })
          else getoptChar args opts p st

inductive Tool where
  | olecfexport
  | olecfinfo
  | olecfmount
  deriving DecidableEq

/-- The options strings: "c:hl:t:vV" olecfexport.c:178-181, "ac:hvV" olecfinfo.c:169-172, "c:hvVX:"
  olecfmount.c:198-201. -/
def Tool.options : Tool → Bytes
  | .olecfexport => [99, 58, 104, 108, 58, 116, 58, 118, 86]
  | .olecfinfo => [97, 99, 58, 104, 118, 86]
  | .olecfmount => [99, 58, 104, 118, 86, 88, 58]

/-- The variables of the three `main` functions that options set: `show_allocation_information`, `verbose`,
  `option_ascii_codepage` or `option_codepage`, `log_filename`, `option_target_path`,
  `option_extended_options`. -/
structure Settings where
  allocation : Bool := false
  verbose : Bool := false
  codepage : Option Bytes := none
  log : Option Bytes := none
  target : Option Bytes := none
  extended : Option Bytes := none
  deriving DecidableEq

/-- What a command line makes a tool do. -/
inductive Command where
  /-- prints the usage, `EXIT_SUCCESS` -/
  | usage
  /-- prints the copyright, `EXIT_SUCCESS` -/
  | version
  /-- "Invalid argument: ", usage, `EXIT_FAILURE` -/
  | invalid (shown : Bytes)
  /-- "Missing source file.", usage, `EXIT_FAILURE` -/
  | missingSource
  /-- "Missing mount point.", usage, `EXIT_FAILURE` -/
  | missingMountPoint
  | run (settings : Settings) (source : Bytes) (mountPoint : Option Bytes)
  deriving DecidableEq

/-- One case of a `switch`. -/
inductive SwitchCase where
  | set (s : Settings)
  | usage
  | version
  | invalid

/-- The `switch` of the option loops, olecfexport.c:183-228, olecfinfo.c:174-214, olecfmount.c:203-243. -/
def Tool.switch (t : Tool) (option : UInt8) (optarg : Option Bytes) (s : Settings) : SwitchCase :=
  if option = 63 then .invalid
  else if option = 97 ∧ t = .olecfinfo then .set { s with allocation := true }
  else if option = 99 then .set { s with codepage := optarg }
  else if option = 104 then .usage
  else if option = 108 ∧ t = .olecfexport then .set { s with log := optarg }
  else if option = 116 ∧ t = .olecfexport then .set { s with target := optarg }
  else if option = 118 then .set { s with verbose := true }
  else if option = 86 then .version
  else if option = 88 ∧ t = .olecfmount then .set { s with extended := optarg }
  else .invalid

/-- The operands, olecfexport.c:230-241, olecfinfo.c:216-227, olecfmount.c:245-269.  With no arguments at
  all (`argc` 0) `argv[ 1 ]` is behind the end of the array. -/
def Tool.operands (t : Tool) (args : List Bytes) (optind : Nat) (s : Settings) : Res Command :=
  if optind = args.length then .ok .missingSource
  else match args[optind]? with
    | none => .ub
    | some source =>
      match t with
      | .olecfmount =>
        if optind + 1 = args.length then .ok .missingMountPoint
        else match args[optind + 1]? with
          | none => .ub
          | some m => .ok (.run s source (some m))
      | _ => .ok (.run s source none)

/-- The option loops, olecfexport.c:178-229, olecfinfo.c:169-215, olecfmount.c:198-244, and what follows. -/
def Tool.loop (t : Tool) (args : List Bytes) : Nat → GetoptState → Settings → Res Command
  | 0, _, _ => .hang
  | fuel + 1, st, s => do
    let (option, st) ← getopt args t.options st
    match option with
    | none => t.operands args st.optind s
    | some o =>
      match t.switch o st.optarg s with
      | .set s => t.loop args fuel st s
      | .usage => .ok .usage
      | .version => .ok .version
      | .invalid => match args[st.optind - 1]? with
        | none => .ub
        | some a => .ok (.invalid a)

/-- The `main` functions up to the use of the operands, for the arguments with the name of the program. -/
def Tool.command (t : Tool) (args : List Bytes) : Res Command :=
  t.loop args ((args.map List.length).sum + args.length + 1) .initial {}

end Olecf
