import Verif.Model.MemItem
import Verif.Spec.MemFile
import Verif.Spec.Path

/-! Programs that use a file object and items of it. -/

namespace Olecf
namespace Spec

/-- A path or name of a program, with the conversions of libuna for its encoding. -/
structure Text where
  units : List Nat
  dec : Decoder Nat
  cmp : List Nat → Bytes → Option Bool

/-- A call on an item. -/
inductive ItemCall where
  | field (g : Field)
  /-- one of the four functions for the name; `conv` is what libuna makes of it -/
  | name (conv : IoHandle → Item → Res Bytes)
  | count
  | sub (index : Int)
  | subByName (t : Text)
  | subByPath (t : Text)
  | read (size : Nat)
  | seek (offset : Int) (whence : Whence)
  | position

/-- A step of a program: a call on the file object, a call that gives an item of the file, or a call
  on item number `k`.  The program counts the items it is given. -/
inductive Step where
  | file (op : FileOp)
  | root
  | path (t : Text)
  | item (k : Nat) (c : ItemCall)
  | free (k : Nat)

/-- What a step returns. -/
inductive Reply where
  | done (b : Bool)
  | item (r : Res (Option Item))
  | number (n : Nat)
  | bytes (r : Res Bytes)
  | position (r : Res Int)
  /-- the program has no such item (a `NULL` pointer) -/
  | noItem
  deriving DecidableEq

/-- An item of the program; `fresh` until the file is closed. -/
structure Held where
  item : MItem
  fresh : Bool

/-- What a program holds: the file object and the items that were given to it, `none` for those it
  freed. -/
structure Program where
  file : MFile
  items : List (Option Held)

/-- The item as the program sees it. -/
def MItem.value (it : MItem) : Item := it.pos.item

/-- The program keeps an item it was given. -/
def Program.given (p : Program) (r : Res (Option MItem)) : Program × Reply :=
  match r with
  | .ok (some it) => ({ p with items := p.items ++ [some ⟨it, true⟩] }, .item (.ok (some it.pos.item)))
  | .ok none => (p, .item (.ok none))
  | .err => (p, .item .err)
  | .ub => (p, .item .ub)
  | .hang => (p, .item .hang)

/-- The item in place `k` is changed. -/
def Program.set (p : Program) (k : Nat) (x : Option Held) : Program :=
  { p with items := p.items.set k x }

/-- A call on an item. -/
def ItemCall.run (p : Program) (k : Nat) (x : Held) : ItemCall → Mem World (Program × Reply)
  | .field g => do
    let n ← memField x.item g
    pure (p, .number n)
  | .name conv => do
    let r ← memName conv p.file x.item
    pure (p, .bytes r)
  | .count => do
    let n ← memCount x.item
    pure (p, .number n)
  | .sub index => do
    let r ← memSubItem x.item index
    pure (p.given r)
  | .subByName t => do
    let r ← memSubItemByName t.cmp x.item t.units
    pure (p.given r)
  | .subByPath t => do
    let r ← memSubItemByPath t.dec t.cmp x.item t.units
    pure (p.given r)
  | .read size => do
    let r ← memRead p.file x.item size
    pure (p.set k (some ⟨r.1, x.fresh⟩), .bytes r.2)
  | .seek offset whence => do
    let r ← memSeek x.item offset whence
    pure (p.set k (some ⟨r.1, x.fresh⟩), .position r.2)
  | .position => do
    let r ← memGetOffset x.item
    pure (p, .position r)

/-- After the file was closed no item is fresh. -/
def Held.afterOp (op : FileOp) (x : Held) : Held :=
  match op with
  | .close _ => { x with fresh := false }
  | _ => x

/-- A step of a program. -/
def Step.run (cmp : Bytes → Bytes → Option Bool) (p : Program) : Step → Mem World (Program × Reply)
  | .file op => do
    let r ← op.mem cmp p.file
    pure (⟨r.1, p.items.map (·.map (·.afterOp op))⟩, .done r.2)
  | .root => do
    let r ← memRootItem p.file
    pure (p.given r)
  | .path t => do
    let r ← memFileItemByPath t.dec t.cmp p.file t.units
    pure (p.given r)
  | .item k c =>
    match p.items[k]? with
    | some (some x) => c.run p k x
    | _ => pure (p, .noItem)
  | .free k =>
    match p.items[k]? with
    | some (some x) => do
      memFreeItem x.item
      pure (p.set k none, .done true)
    | _ => pure (p, .noItem)

/-- A program: its steps one after the other. -/
def runSteps (cmp : Bytes → Bytes → Option Bool) :
    Program → List Step → Mem World (Program × List Reply)
  | p, [] => pure (p, [])
  | p, s :: rest => do
    let r ← s.run cmp p
    let r' ← runSteps cmp r.1 rest
    pure (r'.1, r.2 :: r'.2)

/-- The rule for programs: an item that was given before the file was closed is used for nothing but
  to be freed. -/
def Step.Allowed (p : Program) : Step → Prop
  | .item k _ => ∀ x, p.items[k]? = some (some x) → x.fresh = true
  | _ => True

/-- The program obeys the rule at every step. -/
def Careful (cmp : Bytes → Bytes → Option Bool) : Program → List Step → World → Heap → Prop
  | _, [], _, _ => True
  | p, s :: rest, w, h => s.Allowed p ∧
    match s.run cmp p w h with
    | (.ok r, w', h') => Careful cmp r.1 rest w' h'
    | _ => True

/-- The blocks of the items a program holds: one for each. -/
def heldBlocks (items : List (Option Held)) : List Nat :=
  items.flatMap fun x => x.toList.map fun x => x.item.block

/-- The blocks of a program. -/
def programBlocks (p : Program) : List Nat := fileBlocks p.file ++ heldBlocks p.items

/-- The steps of a program with a new file object. -/
def newRun (cmp : Bytes → Bytes → Option Bool) (steps : List Step) :
    Mem World (Program × List Reply) := do
  let f ← memNewFile
  runSteps cmp ⟨f, []⟩ steps

/-- The program `steps`, run with a new file object, obeys the rule of `Careful`. -/
def CarefulRun (cmp : Bytes → Bytes → Option Bool) (steps : List Step) (w : World) (h : Heap) : Prop :=
  ∀ f w' h', memNewFile w h = (.ok f, w', h') → Careful cmp ⟨f, []⟩ steps w' h'

/-- A program that uses no item after it closed the file. -/
def ClosesLast : List Step → Prop
  | [] => True
  | .file (.close _) :: rest => ∀ k c, Step.item k c ∉ rest
  | _ :: rest => ClosesLast rest

/-- A whole program: it makes a file object, runs, frees the file object, and then the items it
  still holds. -/
def memProgram (cmp : Bytes → Bytes → Option Bool) (steps : List Step) (flt : Faults) :
    Mem World (List Reply) := do
  let r ← newRun cmp steps
  let _ ← memFreeFile flt r.1.file
  Mem.forEach (fun x => memFreeItem x.item) (r.1.items.flatMap Option.toList)
  pure r.2

/-- A reply that has no undefined behaviour in it. -/
def Reply.Defined : Reply → Prop
  | .item r => r.Defined
  | .bytes r => r.Defined
  | .position r => r.Defined
  | _ => True

/-- What is assumed of libuna: of the decoder of a path, as in C22, and of the conversion of a
  name. -/
def Step.Contract : Step → Prop
  | .path t | .item _ (.subByPath t) => ∀ s c n, s ≠ [] → t.dec.step s = some (c, n) →
      0 < n ∧ n ≤ s.length ∧ (EndsComponent c → n = 1)
  | .item _ (.name conv) => ∀ io it, (conv io it).Defined
  | _ => True

/-! ### The same programs without memory -/

/-- An item without its blocks. -/
structure PureItem where
  item : Item
  offset : Int

/-- What a program holds, without blocks, and the handles. -/
structure PureProgram where
  state : FileState
  items : List (Option PureItem)

/-- The program keeps an item it was given. -/
def PureProgram.given (p : PureProgram) (r : Res (Option Item)) : PureProgram × Reply :=
  match r with
  | .ok (some it) => ({ p with items := p.items ++ [some ⟨it, 0⟩] }, .item r)
  | _ => (p, .item r)

/-- The answer to a call on an item, by the models of which C19, C20, C22 to C25 speak. -/
def ItemCall.answer (p : PureProgram) (k : Nat) (x : PureItem) : ItemCall → PureProgram × Reply
  | .field .type => (p, .number x.item.entry.type)
  | .field .size => (p, .number x.item.entry.size)
  | .field .created => (p, .number x.item.entry.created)
  | .field .modified => (p, .number x.item.entry.modified)
  | .name conv => (p, .bytes (conv p.state.file.io x.item))
  | .count => (p, .number (match p.state.file.tree with
    | some t => numberOfSubItems t x.item
    | none => 0))
  | .sub index => p.given (match p.state.file.tree with
    | some t => getSubItem t x.item index >>= fun c => .ok (some c)
    | none => .err)
  | .subByName t => p.given (match p.state.file.tree with
    | some tree => getSubItemByName t.cmp tree x.item t.units
    | none => .err)
  | .subByPath t => p.given (itemByPath t.dec t.cmp p.state.file.tree (some x.item) t.units)
  | .read size =>
    match p.state.file.handle.bind fun h => p.state.file.ctx (p.state.world.dev h) with
    | some f =>
      let r := streamRead f x.item.entry x.offset size
      ({ p with items := p.items.set k (some ⟨x.item, r.2⟩) }, .bytes r.1.res)
    | none => (p, .bytes .err)
  | .seek offset whence =>
    let r := streamSeek x.item.entry x.offset offset whence
    ({ p with items := p.items.set k (some ⟨x.item, r.2⟩) }, .position r.1)
  | .position => (p, .position (streamGetOffset x.item.entry x.offset))

/-- The answer to a step. -/
def Step.answer (cmp : Bytes → Bytes → Option Bool) (p : PureProgram) : Step → PureProgram × Reply
  | .file op =>
    let r := op.run cmp p.state
    ({ p with state := r.2 }, .done (match r.1 with | .ok _ => true | _ => false))
  | .root => p.given (.ok (rootItem p.state.file.tree))
  | .path t =>
    p.given (itemByPath t.dec t.cmp p.state.file.tree (rootItem p.state.file.tree) t.units)
  | .item k c =>
    match p.items[k]? with
    | some (some x) => c.answer p k x
    | _ => (p, .noItem)
  | .free k =>
    match p.items[k]? with
    | some (some _) => ({ p with items := p.items.set k none }, .done true)
    | _ => (p, .noItem)

/-- The answers to the steps of a program. -/
def answers (cmp : Bytes → Bytes → Option Bool) : PureProgram → List Step → List Reply
  | _, [] => []
  | p, s :: rest => (s.answer cmp p).2 :: answers cmp (s.answer cmp p).1 rest

/-- What the program holds after the steps. -/
def holdsAfter (cmp : Bytes → Bytes → Option Bool) : PureProgram → List Step → PureProgram
  | p, [] => p
  | p, s :: rest => holdsAfter cmp (s.answer cmp p).1 rest

/-- A held item without its blocks. -/
def heldValue (x : Held) : PureItem := ⟨x.item.pos.item, x.item.offset⟩

/-- A program without its blocks. -/
def programValue (p : Program) (w : World) : PureProgram :=
  ⟨⟨MFile.value p.file, w⟩, p.items.map (·.map heldValue)⟩

end Spec
end Olecf
