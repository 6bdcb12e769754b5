import Verif.Model.Programs
import Verif.Spec.Getopt
import Verif.Spec.Export

/-
  Specification of the programs olecfinfo and olecfexport.
-/

namespace Olecf.Spec

/-- A command line, without the name of the program, that makes a tool work on a source: it has the options
  `es`, neither -h nor -V, and operands of which the first is the source. -/
structure Asks (t : Tool) (rest : List Bytes) (es : List (UInt8 × Option Bytes)) (source : Bytes) :
    Prop where
  reads : ∃ more, Reads (flagsOf t) (withArgOf t) rest es (.operands (source :: more))
  noHelp : ∀ x ∈ es, x.1 ≠ 104 ∧ x.1 ≠ 86
  noEnd : ∀ a ∈ rest, (0 : UInt8) ∉ a

/-- The code page that the option -c asks for: windows-1252 if it is missing or not supported. -/
def askedCodepage (codepageOf : Bytes → Res (Option Int)) (es : List (UInt8 × Option Bytes)) : Int :=
  match lastArg es 99 with
  | none => 1252
  | some name =>
    match codepageOf name with
    | .ok (some cp) => cp
    | _ => 1252

/-- The target: the argument of -t, or the source without the directories in front of it. -/
inductive TargetOf (es : List (UInt8 × Option Bytes)) (source : Bytes) : Bytes → Prop
  | given {t : Bytes} : lastArg es 116 = some t → TargetOf es source t
  | alone : lastArg es 116 = none → (0x2f : UInt8) ∉ source → TargetOf es source source
  | behind {pre t : Bytes} : lastArg es 116 = none → source = pre ++ 0x2f :: t → (0x2f : UInt8) ∉ t →
      TargetOf es source t

end Olecf.Spec
