import Verif.Model.MemSetItem
import Verif.Spec.MemItem
import Verif.Spec.MemSet

/-! Programs that use a file object, items of it and property sets of the items. -/

namespace Olecf
namespace Spec

/-- A call on a property set. -/
inductive SetCall where
  | classId (size : Nat)
  | count
  | sec (index : Int)

/-- A call on a section of a property set. -/
inductive SectionCall where
  | classId (size : Nat)
  | count
  | property (index : Int)

/-- A step of a program: a step on the file and its items (`Step`), the property set of item `k`, a call
  on set, section or value number `i`, or the free of one.  The program counts the sets, the sections and
  the values it is given.  `get` is one of the getters of a value. -/
inductive SetStep where
  | base (s : Step)
  | getSet (k : Nat)
  | set (i : Nat) (c : SetCall)
  | sec (i : Nat) (c : SectionCall)
  | value (i : Nat) (get : PropValue → Res Bytes)
  | freeSet (i : Nat)
  | freeSec (i : Nat)
  | freeValue (i : Nat)

/-- What a step returns. -/
inductive SetReply where
  | base (a : Reply)
  | set (r : Res PropSet)
  | number (n : Int)
  | bytes (r : Res Bytes)
  | sec (r : Res PropSection)
  | value (r : Res PropValue)
  | done
  /-- the program has no such object (a `NULL` pointer) -/
  | nothing

/-- What a program holds: the file object and items, the sets it was given, and the sections and values,
  each with the number of the set that it is part of; `none` for what it freed. -/
structure SetProgram where
  base : Program
  sets : List (Option MSet)
  secs : List (Option (Nat × MSection))
  values : List (Option (Nat × MValue))

/-- The program keeps a set it was given; a failure has no set. -/
def SetProgram.keepSet (p : SetProgram) : Option MSet → SetProgram × SetReply
  | some s => ({ p with sets := p.sets ++ [some s] }, .set (.ok s.view))
  | none => (p, .set .err)

/-- The program keeps a section of set `i`. -/
def SetProgram.keepSec (p : SetProgram) (i : Nat) : Res MSection → SetProgram × SetReply
  | .ok s => ({ p with secs := p.secs ++ [some (i, s)] }, .sec (.ok s.view))
  | .err => (p, .sec .err)
  | .ub => (p, .sec .ub)
  | .hang => (p, .sec .hang)

/-- The program keeps a value of set `i`. -/
def SetProgram.keepValue (p : SetProgram) (i : Nat) : Res MValue → SetProgram × SetReply
  | .ok v => ({ p with values := p.values ++ [some (i, v)] }, .value (.ok v.view))
  | .err => (p, .value .err)
  | .ub => (p, .value .ub)
  | .hang => (p, .value .hang)

/-- A call on a set. -/
def SetCall.run (p : SetProgram) (i : Nat) (s : MSet) : SetCall → Mem World (SetProgram × SetReply)
  | .classId size => do
    let r ← memSetClassId s size
    pure (p, .bytes r)
  | .count => do
    let n ← memSetCount s
    pure (p, .number n)
  | .sec index => do
    let r ← memSetSection s index
    pure (p.keepSec i r)

/-- A call on a section of set `i`. -/
def SectionCall.run (p : SetProgram) (i : Nat) (s : MSection) :
    SectionCall → Mem World (SetProgram × SetReply)
  | .classId size => do
    let r ← memSectionClassId s size
    pure (p, .bytes r)
  | .count => do
    let n ← memSectionCount s
    pure (p, .number n)
  | .property index => do
    let r ← memSectionProperty s index
    pure (p.keepValue i r)

/-- A step of a program. -/
def SetStep.run (cmp : Bytes → Bytes → Option Bool) (p : SetProgram) :
    SetStep → Mem World (SetProgram × SetReply)
  | .base s => do
    let r ← s.run cmp p.base
    pure ({ p with base := r.1 }, .base r.2)
  | .getSet k =>
    match p.base.items[k]? with
    | some (some x) => do
      let r ← memItemSet p.base.file x.item
      pure (({ p with base := p.base.set k (some ⟨r.1, x.fresh⟩) } : SetProgram).keepSet r.2)
    | _ => pure (p, .nothing)
  | .set i c =>
    match p.sets[i]? with
    | some (some s) => c.run p i s
    | _ => pure (p, .nothing)
  | .sec j c =>
    match p.secs[j]? with
    | some (some (i, s)) => c.run p i s
    | _ => pure (p, .nothing)
  | .value j get =>
    match p.values[j]? with
    | some (some (_, v)) => do
      let r ← memValueGet v get
      pure (p, .bytes r)
    | _ => pure (p, .nothing)
  | .freeSet i =>
    match p.sets[i]? with
    | some (some s) => do
      memFreeSet s
      pure ({ p with sets := p.sets.set i none }, .done)
    | _ => pure (p, .nothing)
  | .freeSec j => pure ({ p with secs := p.secs.set j none }, .done)
  | .freeValue j => pure ({ p with values := p.values.set j none }, .done)

/-- A program: its steps one after the other. -/
def runSetSteps (cmp : Bytes → Bytes → Option Bool) :
    SetProgram → List SetStep → Mem World (SetProgram × List SetReply)
  | p, [] => pure (p, [])
  | p, s :: rest => do
    let r ← s.run cmp p
    let r' ← runSetSteps cmp r.1 rest
    pure (r'.1, r.2 :: r'.2)

/-- The set `i` was not freed. -/
def SetProgram.Alive (p : SetProgram) (i : Nat) : Prop := ∃ s, p.sets[i]? = some (some s)

/-- The rule for programs: an item that was given before the file was closed is used for nothing but
  to be freed, and a section or value is not used after its set was freed. -/
def SetStep.Allowed (p : SetProgram) : SetStep → Prop
  | .base s => s.Allowed p.base
  | .getSet k => ∀ x, p.base.items[k]? = some (some x) → x.fresh = true
  | .sec j _ => ∀ i s, p.secs[j]? = some (some (i, s)) → p.Alive i
  | .value j _ => ∀ i v, p.values[j]? = some (some (i, v)) → p.Alive i
  | _ => True

/-- The program obeys the rule at every step. -/
def SetCareful (cmp : Bytes → Bytes → Option Bool) : SetProgram → List SetStep → World → Heap → Prop
  | _, [], _, _ => True
  | p, s :: rest, w, h => s.Allowed p ∧
    match s.run cmp p w h with
    | (.ok r, w', h') => SetCareful cmp r.1 rest w' h'
    | _ => True

/-- The blocks of the sets a program holds. -/
def setsBlocks (sets : List (Option MSet)) : List Nat :=
  sets.flatMap fun s => s.toList.flatMap setBlocks

/-- The blocks of a program: the file object, one for each item, and those of the sets. -/
def setProgramBlocks (p : SetProgram) : List Nat := programBlocks p.base ++ setsBlocks p.sets

/-- The steps of a program with a new file object. -/
def newSetRun (cmp : Bytes → Bytes → Option Bool) (steps : List SetStep) :
    Mem World (SetProgram × List SetReply) := do
  let f ← memNewFile
  runSetSteps cmp ⟨⟨f, []⟩, [], [], []⟩ steps

/-- The program `steps`, run with a new file object, obeys the rule. -/
def SetCarefulRun (cmp : Bytes → Bytes → Option Bool) (steps : List SetStep) (w : World) (h : Heap) :
    Prop :=
  ∀ f w' h', memNewFile w h = (.ok f, w', h') → SetCareful cmp ⟨⟨f, []⟩, [], [], []⟩ steps w' h'

/-- A program that uses no item after it closed the file, and no section or value after it freed a
  set. -/
def FreesLast : List SetStep → Prop
  | [] => True
  | .base (.file (.close _)) :: rest =>
    (∀ k c, SetStep.base (.item k c) ∉ rest) ∧ (∀ k, SetStep.getSet k ∉ rest) ∧ FreesLast rest
  | .freeSet _ :: rest =>
    (∀ j c, SetStep.sec j c ∉ rest) ∧ (∀ j get, SetStep.value j get ∉ rest) ∧ FreesLast rest
  | _ :: rest => FreesLast rest

/-- A whole program: it makes a file object, runs, frees the file object, the items and then the sets it
  still has. -/
def memSetProgram (cmp : Bytes → Bytes → Option Bool) (steps : List SetStep) (flt : Faults) :
    Mem World (List SetReply) := do
  let r ← newSetRun cmp steps
  let _ ← memFreeFile flt r.1.base.file
  Mem.forEach (fun x => memFreeItem x.item) (r.1.base.items.flatMap Option.toList)
  Mem.forEach memFreeSet (r.1.sets.flatMap Option.toList)
  pure r.2

/-- The number of property sets that could not be read. -/
def failedSets : List SetReply → Nat
  | [] => 0
  | .set .err :: rest => failedSets rest + 1
  | _ :: rest => failedSets rest

/-- A call was refused memory that it asked for. -/
def RefusedIn (h h' : Heap) : Prop := ∃ n, h.asked ≤ n ∧ n < h'.asked ∧ h.grant n = false

/-- A reply that has no undefined behaviour in it. -/
def SetReply.Defined : SetReply → Prop
  | .base a => a.Defined
  | .set r => r.Defined
  | .bytes r => r.Defined
  | .sec r => r.Defined
  | .value r => r.Defined
  | _ => True

/-! ### The same programs without memory -/

/-- What a program holds, without blocks. -/
structure PureSets where
  base : PureProgram
  sets : List (Option PropSet)
  secs : List (Option (Nat × PropSection))
  values : List (Option (Nat × PropValue))

/-- The answer to the request for the set of item `k`, by `readSet`, of which C38 to C41 and C53
  speak. -/
def PureSets.getSet (p : PureSets) (k : Nat) (x : PureItem) : PureSets × SetReply :=
  match p.base.state.file.handle.bind fun h => p.base.state.file.ctx (p.base.state.world.dev h) with
  | some f =>
    let r := readSet f x.item.entry x.offset
    let p := { p with base := { p.base with items := p.base.items.set k (some ⟨x.item, r.2⟩) } }
    match r.1 with
    | .ok s => ({ p with sets := p.sets ++ [some s] }, .set (.ok s))
    | e => (p, .set e)
  | none => (p, .set .err)

/-- The answer to a step. -/
def SetStep.answer (cmp : Bytes → Bytes → Option Bool) (p : PureSets) : SetStep → PureSets × SetReply
  | .base s =>
    let r := s.answer cmp p.base
    ({ p with base := r.1 }, .base r.2)
  | .getSet k =>
    match p.base.items[k]? with
    | some (some x) => p.getSet k x
    | _ => (p, .nothing)
  | .set i c =>
    match p.sets[i]?, c with
    | some (some s), .classId size => (p, .bytes (copyClassId s.classId size))
    | some (some s), .count => (p, .number s.numberOfSections)
    | some (some s), .sec index =>
      match s.section_ index with
      | .ok t => ({ p with secs := p.secs ++ [some (i, t)] }, .sec (.ok t))
      | e => (p, .sec e)
    | _, _ => (p, .nothing)
  | .sec j c =>
    match p.secs[j]?, c with
    | some (some (_, s)), .classId size => (p, .bytes (copyClassId s.classId size))
    | some (some (_, s)), .count => (p, .number s.numberOfProperties)
    | some (some (i, s)), .property index =>
      match s.property index with
      | .ok v => ({ p with values := p.values ++ [some (i, v)] }, .value (.ok v))
      | e => (p, .value e)
    | _, _ => (p, .nothing)
  | .value j get =>
    match p.values[j]? with
    | some (some (_, v)) => (p, .bytes (get v))
    | _ => (p, .nothing)
  | .freeSet i =>
    match p.sets[i]? with
    | some (some _) => ({ p with sets := p.sets.set i none }, .done)
    | _ => (p, .nothing)
  | .freeSec j => ({ p with secs := p.secs.set j none }, .done)
  | .freeValue j => ({ p with values := p.values.set j none }, .done)

/-- The answers to the steps of a program, and what it holds afterwards. -/
def setAnswers (cmp : Bytes → Bytes → Option Bool) :
    PureSets → List SetStep → PureSets × List SetReply
  | p, [] => (p, [])
  | p, s :: rest =>
    let r := s.answer cmp p
    let r' := setAnswers cmp r.1 rest
    (r'.1, r.2 :: r'.2)

/-- A program without its blocks. -/
def setProgramValue (p : SetProgram) (w : World) : PureSets :=
  ⟨programValue p.base w, p.sets.map (·.map MSet.view), p.secs.map (·.map fun x => (x.1, x.2.view)),
    p.values.map (·.map fun x => (x.1, x.2.view))⟩

end Spec
end Olecf
