import Verif.Model.Item

/-
  Specification of names and paths.
-/

namespace Olecf.Spec

/-- The string `s` decodes as the given characters, each with the code units that encode it. -/
inductive Decodes (dec : Decoder α) : List α → List (Nat × List α) → Prop
  | nil : Decodes dec [] []
  | cons {c : Nat} {u rest : List α} {cs : List (Nat × List α)} :
      u ≠ [] → dec.step (u ++ rest) = some (c, u.length) → Decodes dec rest cs →
      Decodes dec (u ++ rest) ((c, u) :: cs)

/-- The string `s` decodes as the given characters up to a point where decoding fails. -/
inductive DecodesBad (dec : Decoder α) : List α → List (Nat × List α) → Prop
  | bad {s : List α} : s ≠ [] → dec.step s = none → DecodesBad dec s []
  | cons {c : Nat} {u rest : List α} {cs : List (Nat × List α)} :
      u ≠ [] → dec.step (u ++ rest) = some (c, u.length) → DecodesBad dec rest cs →
      DecodesBad dec (u ++ rest) ((c, u) :: cs)

/-- The character ends a component: the separator, or the end of string character. -/
def EndsComponent (c : Nat) : Prop := c = 0x5c ∨ c = 0

instance (c) : Decidable (EndsComponent c) := inferInstanceAs (Decidable (_ ∨ _))

/-- The components of a path.  A separator at the end does not start another component. -/
def components (cs : List (Nat × List α)) (current : List α := []) : List (List α) :=
  match cs with
  | [] => if current.length = 0 then [] else [current]
  | (c, u) :: cs =>
    if EndsComponent c then current :: components cs []
    else components cs (current ++ u)

/-- The components that are ended by a separator. -/
def closedComponents (cs : List (Nat × List α)) (current : List α := []) : List (List α) :=
  match cs with
  | [] => []
  | (c, u) :: cs =>
    if EndsComponent c then current :: closedComponents cs []
    else closedComponents cs (current ++ u)

/-- The outcome of looking up a name among sub items, by a name comparison that gives equal,
  different or an error: the first equal one, unless the comparison failed before. -/
inductive FirstMatch (cmp : List α → Bytes → Option Bool) (name : List α) :
    List DirEntry → Res (Option DirEntry) → Prop
  | found {before after : List DirEntry} {c : DirEntry} :
      (∀ x ∈ before, cmp name x.name = some false) → cmp name c.name = some true →
      FirstMatch cmp name (before ++ c :: after) (.ok (some c))
  | missing {all : List DirEntry} : (∀ x ∈ all, cmp name x.name = some false) →
      FirstMatch cmp name all (.ok none)
  | failed {before after : List DirEntry} {c : DirEntry} :
      (∀ x ∈ before, cmp name x.name = some false) → cmp name c.name = none →
      FirstMatch cmp name (before ++ c :: after) .err

/-- Repeated lookup by name.  The empty name is never found. -/
def walk (lookup : Item → List α → Res (Option Item)) : Item → List (List α) → Res (Option Item)
  | item, [] => .ok (some item)
  | item, name :: rest =>
    if name.length = 0 then .ok none
    else match lookup item name with
      | .ok (some c) => walk lookup c rest
      | .ok none => .ok none
      | .err => .err
      | .ub => .ub
      | .hang => .hang

end Olecf.Spec
