import Verif.Model.Getopt

/-
  Specification of command lines: the utility syntax of POSIX.  Options are single letters; those without an
  argument can be grouped behind one dash; the argument of an option is the rest of the group or the next
  argument; "--" ends the options and "-" is an operand.
-/

namespace Olecf.Spec

/-- What the options of a command line end with. -/
inductive End where
  | operands (l : List Bytes)
  /-- the argument has a letter that is not an option; what is behind the letter in it -/
  | unknown (arg : Bytes) (behind : Bytes)
  /-- the last argument ends with an option whose argument is missing -/
  | missing (arg : Bytes)

/-- The options on a command line, with their arguments, and what they end with. -/
inductive Reads (flags withArg : Bytes) : List Bytes → List (UInt8 × Option Bytes) → End → Prop
  | done : Reads flags withArg [] [] (.operands [])
  | operand {a : Bytes} {rest : List Bytes} : a.head? ≠ some 45 ∨ a = [45] →
      Reads flags withArg (a :: rest) [] (.operands (a :: rest))
  | dashes {rest : List Bytes} : Reads flags withArg ([45, 45] :: rest) [] (.operands rest)
  | group {fs : Bytes} {rest : List Bytes} {es : List (UInt8 × Option Bytes)} {e : End} : fs ≠ [] →
      (∀ c ∈ fs, c ∈ flags) → Reads flags withArg rest es e →
      Reads flags withArg ((45 :: fs) :: rest) (fs.map (·, none) ++ es) e
  | attached {fs : Bytes} {c : UInt8} {v : Bytes} {rest : List Bytes} {es : List (UInt8 × Option Bytes)}
      {e : End} : (∀ c ∈ fs, c ∈ flags) → c ∈ withArg → v ≠ [] → Reads flags withArg rest es e →
      Reads flags withArg ((45 :: (fs ++ c :: v)) :: rest) (fs.map (·, none) ++ (c, some v) :: es) e
  | separate {fs : Bytes} {c : UInt8} {v : Bytes} {rest : List Bytes} {es : List (UInt8 × Option Bytes)}
      {e : End} : (∀ c ∈ fs, c ∈ flags) → c ∈ withArg → Reads flags withArg rest es e →
      Reads flags withArg ((45 :: (fs ++ [c])) :: v :: rest) (fs.map (·, none) ++ (c, some v) :: es) e
  | unknown {fs : Bytes} {c : UInt8} {r : Bytes} {rest : List Bytes} : (∀ c ∈ fs, c ∈ flags) →
      c ∉ flags → c ∉ withArg → 45 :: (fs ++ c :: r) ≠ [45, 45] →
      Reads flags withArg ((45 :: (fs ++ c :: r)) :: rest) (fs.map (·, none))
        (.unknown (45 :: (fs ++ c :: r)) r)
  | missing {fs : Bytes} {c : UInt8} : (∀ c ∈ fs, c ∈ flags) → c ∈ withArg →
      Reads flags withArg [45 :: (fs ++ [c])] (fs.map (·, none)) (.missing (45 :: (fs ++ [c])))

/-- An argument that is looked at for options: it is not the argument of an option and no operand and no
  "--" is before it. -/
inductive Examined (flags withArg : Bytes) : List Bytes → Bytes → Prop
  | here {a : Bytes} {rest : List Bytes} : Examined flags withArg (a :: rest) a
  | group {fs : Bytes} {rest : List Bytes} {a : Bytes} : fs ≠ [] → (∀ c ∈ fs, c ∈ flags) →
      Examined flags withArg rest a → Examined flags withArg ((45 :: fs) :: rest) a
  | attached {fs : Bytes} {c : UInt8} {v : Bytes} {rest : List Bytes} {a : Bytes} :
      (∀ c ∈ fs, c ∈ flags) → c ∈ withArg → v ≠ [] → Examined flags withArg rest a →
      Examined flags withArg ((45 :: (fs ++ c :: v)) :: rest) a
  | separate {fs : Bytes} {c : UInt8} {v : Bytes} {rest : List Bytes} {a : Bytes} :
      (∀ c ∈ fs, c ∈ flags) → c ∈ withArg → Examined flags withArg rest a →
      Examined flags withArg ((45 :: (fs ++ [c])) :: v :: rest) a

/-- The options without an argument in the usage of a tool: "hvV" and for olecfinfo "a". -/
def flagsOf : Tool → Bytes
  | .olecfexport => [104, 118, 86]
  | .olecfinfo => [97, 104, 118, 86]
  | .olecfmount => [104, 118, 86]

/-- The options with an argument: -c codepage, -l logfile, -t target, -X extended_options. -/
def withArgOf : Tool → Bytes
  | .olecfexport => [99, 108, 116]
  | .olecfinfo => [99]
  | .olecfmount => [99, 88]

/-- The argument of the last option of that letter. -/
def lastArg (es : List (UInt8 × Option Bytes)) (c : UInt8) : Option Bytes :=
  (es.filterMap fun e => if e.1 = c then e.2 else none).getLast?

/-- The settings that options make; nothing is said about letters the tool does not have. -/
def settingsOf (es : List (UInt8 × Option Bytes)) : Settings where
  allocation := es.any (·.1 == 97)
  verbose := es.any (·.1 == 118)
  codepage := lastArg es 99
  log := lastArg es 108
  target := lastArg es 116
  extended := lastArg es 88

/-- What a tool has to do: -h and -V, whichever is first, come before anything behind them. -/
def commandOf (t : Tool) (es : List (UInt8 × Option Bytes)) (e : End) : Command :=
  match es.find? fun x => x.1 = 104 ∨ x.1 = 86 with
  | some x => if x.1 = 104 then .usage else .version
  | none =>
    match e with
    | .unknown a _ => .invalid a
    | .missing a => .invalid a
    | .operands [] => .missingSource
    | .operands [s] => if t = .olecfmount then .missingMountPoint else .run (settingsOf es) s none
    | .operands (s :: m :: _) => .run (settingsOf es) s (if t = .olecfmount then some m else none)

end Olecf.Spec
