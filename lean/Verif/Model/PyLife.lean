import Verif.Model.Base

/-
  Model of the lifetimes of the objects of the Python bindings and of the memory of the library they
  point to.

  An object has a reference count.  A program holds references in its variables; an object holds a
  reference to its parent object.  The memory of the library is a set of cells, allocated and freed by
  the library functions the bindings call.
-/

namespace Olecf

/-- The classes of the bindings, up to the sub classes of item: file, item, sequence of items,
  property set, sequence of sections, section, sequence of values, value. -/
inductive PyKind where
  | file | item | items | set | sections | section | values | value
  deriving Repr, DecidableEq

/-- The memory of the library: of a `libolecf_file_t` with its IO handle, of what
  opening a file allocates (the allocation tables, the directory tree, the libbfio handle; one cell for
  each opening), of a `libolecf_item_t`, and of a `libolecf_property_set_t` with its sections and
  values (libolecf/libolecf_property_set.c:133-175). -/
inductive Cell where
  | file (i : Nat)
  | opening (g : Nat)
  | item (i : Nat)
  | set (i : Nat)
  deriving Repr, DecidableEq

/-- An object of the bindings: its class, its parent object, and the memory it points to. -/
structure PyObj where
  kind : PyKind
  parent : Option Nat
  cells : List Cell
  deriving Repr, DecidableEq

/-- The state of a program: the objects and their reference counts; the references in variables; the
  numbers of objects and of openings so far; the current opening of each file object; the memory.
  `bad` is set when memory is freed that is not allocated, or a reference to an object that is gone
  is used. -/
structure Life where
  objs : Nat → Option PyObj
  rc : Nat → Nat
  held : List Nat
  next : Nat
  gens : Nat
  opened : Nat → Option Nat
  alloc : Cell → Bool
  freed : Cell → Bool
  bad : Bool

/-- No objects, no memory. -/
def Life.empty : Life where
  objs _ := none
  rc _ := 0
  held := []
  next := 0
  gens := 0
  opened _ := none
  alloc _ := false
  freed _ := false
  bad := false

/-- A function changed at one point. -/
def setAt [DecidableEq α] (f : α → β) (i : α) (v : β) : α → β := fun j => if j = i then v else f j

/-- Memory is freed; `bad` if it is not allocated, or freed before. -/
def freeCell (w : Life) (c : Cell) : Life :=
  { w with bad := w.bad || w.freed c || !w.alloc c, freed := setAt w.freed c true }

/-- libolecf/libolecf_file.c:615-800 (libolecf_file_close), pyolecf/pyolecf_file.c:793-860
  (pyolecf_file_close): what the opening allocated is freed.  That the closing of an open file does
  not fail is assumed. -/
def closeOpening (w : Life) (f g : Nat) : Life :=
  { freeCell w (.opening g) with opened := setAt w.opened f none }

/-- What is freed with an object: pyolecf/pyolecf_file.c:312-383 (pyolecf_file_free) with
  libolecf/libolecf_file.c:134-195 (libolecf_file_free); pyolecf/pyolecf_item.c:341-408
  (pyolecf_item_free) with libolecf/libolecf_item.c:170-197 (libolecf_item_free);
  pyolecf/pyolecf_property_set.c:269-336 (pyolecf_property_set_free) with
  libolecf/libolecf_property_set.c:133-175 (libolecf_property_set_free).  Freeing a section or a value
  of the library frees nothing (libolecf/libolecf_property_section.c:134-158,
  libolecf_property_value.c:116-140). -/
def dealloc (w : Life) (x : Nat) : PyKind → Life
  | .file =>
    match w.opened x with
    | some g => freeCell (closeOpening w x g) (.file x)
    | none => freeCell w (.file x)
  | .item => freeCell w (.item x)
  | .set => freeCell w (.set x)
  | _ => w

/-- Py_DecRef: a reference to `x` is given up.  With the last one, the object is freed and gives up
  its reference to the parent object.  (In the code the memory of the object itself is freed after
  the reference to the parent object is given up; here before.)  `fuel`: the parent of an object is
  older, `x + 1` is enough. -/
def decRef : Nat → Nat → Life → Life
  | 0, _, w => w
  | fuel + 1, x, w =>
    match w.objs x with
    | none => { w with bad := true }
    | some p =>
      if w.rc x = 1 then
        let w := dealloc { w with rc := setAt w.rc x 0, objs := setAt w.objs x none } x p.kind
        match p.parent with
        | none => w
        | some q => decRef fuel q w
      else { w with rc := setAt w.rc x (w.rc x - 1) }

/-- Py_IncRef. -/
def incRef (w : Life) (x : Nat) : Life :=
  { w with bad := w.bad || (w.objs x).isNone, rc := setAt w.rc x (w.rc x + 1) }

/-- Memory is allocated, if any. -/
def allocWith (alloc : Cell → Bool) : Option Cell → Cell → Bool
  | some c => setAt alloc c true
  | none => alloc

/-- A new object, in a variable: the functions `..._new`.  The reference to the parent object is
  counted (such as pyolecf/pyolecf_item.c:295-301). -/
def newObj (w : Life) (p : PyObj) (c : Option Cell) : Life :=
  let w' := match p.parent with
    | some q => incRef w q
    | none => w
  { w' with
    objs := setAt w'.objs w.next (some p)
    rc := setAt w'.rc w.next 1
    held := w.next :: w.held
    next := w.next + 1
    alloc := allocWith w'.alloc c }

/-- What a program does with the bindings.  Calls that fail, or give values that are no objects of the
  bindings, are `use`. -/
inductive LifeOp where
  | newFile
  | openFile (f : Nat)
  | close (f : Nat)
  | derive (k : PyKind) (o : Nat)
  | use (o : Nat)
  | keep (o : Nat)
  | drop (o : Nat)
  deriving Repr, DecidableEq

/-- The object a call on object `o` gives, and the memory allocated for it:
  pyolecf/pyolecf_file.c:1424-1513 (pyolecf_file_get_root_item) and 1516-1625
  (pyolecf_file_get_item_by_path); pyolecf/pyolecf_item.c:1006-1085
  (pyolecf_item_get_sub_item_by_index), 1119-1178 (pyolecf_item_get_sub_items), 1183-1400 (by name and
  by path); pyolecf/pyolecf_items.c:300-480 (the sequence calls the function of its parent);
  pyolecf/pyolecf_property_set_stream.c:163-230; pyolecf/pyolecf_property_set.c:459-617;
  pyolecf/pyolecf_property_section.c:459-617.
  A sub item points where the item it is obtained from points, and has the same parent. -/
def childOf (w : Life) (o : Nat) (p : PyObj) : PyKind → Option (PyObj × Option Cell)
  | .item =>
    match p.kind with
    | .file => match w.opened o with
      | none => none
      | some g => some (⟨.item, some o, [.item w.next, .opening g, .file o]⟩, some (.item w.next))
    | .item => some (⟨.item, p.parent, .item w.next :: p.cells.tail⟩, some (.item w.next))
    | .items => match p.parent.bind w.objs with
      | none => none
      | some it => some (⟨.item, it.parent, .item w.next :: it.cells.tail⟩, some (.item w.next))
    | _ => none
  | .items => if p.kind = .item then some (⟨.items, some o, p.cells⟩, none) else none
  | .set =>
    if p.kind = .item then some (⟨.set, some o, [.set w.next]⟩, some (.set w.next)) else none
  | .sections => if p.kind = .set then some (⟨.sections, some o, p.cells⟩, none) else none
  | .section =>
    match p.kind with
    | .set => some (⟨.section, some o, p.cells⟩, none)
    | .sections => some (⟨.section, p.parent, p.cells⟩, none)
    | _ => none
  | .values => if p.kind = .section then some (⟨.values, some o, p.cells⟩, none) else none
  | .value =>
    match p.kind with
    | .section => some (⟨.value, some o, p.cells⟩, none)
    | .values => some (⟨.value, p.parent, p.cells⟩, none)
    | _ => none
  | .file => none

/-- A call of a method of the object in a variable: undefined if the object is gone, or memory it points
  to is freed.  (A call that does not look at all of this memory is made to look at it.)  A program
  cannot make a call on an object it has no reference to: nothing happens. -/
def callOn (w : Life) (o : Nat) (k : PyObj → Res Unit × Life) : Res Unit × Life :=
  if o ∉ w.held then (.err, w)
  else match w.objs o with
    | none => (.ub, w)
    | some p => if p.cells.any w.freed then (.ub, w) else k p

/-- One step of a program. -/
def lifeStep (w : Life) : LifeOp → Res Unit × Life
  | .newFile => (.ok (), newObj w ⟨.file, none, [.file w.next]⟩ (some (.file w.next)))
  | .openFile f => callOn w f fun p =>
    if p.kind ≠ .file then (.err, w)
    else match w.opened f with
      | some _ => (.err, w)
      | none => (.ok (), { w with
          opened := setAt w.opened f (some w.gens)
          gens := w.gens + 1
          alloc := setAt w.alloc (.opening w.gens) true })
  | .close f => callOn w f fun p =>
    if p.kind ≠ .file then (.err, w)
    else match w.opened f with
      | none => (.err, w)
      | some g => (.ok (), closeOpening w f g)
  | .derive k o => callOn w o fun p =>
    match childOf w o p k with
    | none => (.err, w)
    | some (q, c) => (.ok (), newObj w q c)
  | .use o => callOn w o fun _ => (.ok (), w)
  | .keep o => if o ∉ w.held then (.err, w) else (.ok (), { incRef w o with held := o :: w.held })
  | .drop o =>
    if o ∉ w.held then (.err, w)
    else (.ok (), decRef (o + 1) o { w with held := w.held.erase o })

/-- A program: the results of its steps, and the state after it. -/
def lifeRun (w : Life) : List LifeOp → List (Res Unit) × Life
  | [] => ([], w)
  | op :: ops =>
    let (r, w) := lifeStep w op
    let (rs, w) := lifeRun w ops
    (r :: rs, w)

end Olecf
