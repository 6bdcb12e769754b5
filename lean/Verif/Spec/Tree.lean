import Verif.Model.Tree

/-
  Specification of the item hierarchy: the link graph of a directory.
-/

namespace Olecf.Spec

/-- The kinds of links. -/
inductive Link where
  | sub
  | prev
  | next
  deriving DecidableEq, Repr

/-- The identifier stored in a link field. -/
def linkId (d : DirEntry) : Link → Nat
  | .sub => d.sub
  | .prev => d.prev
  | .next => d.next

/-- The link is in use: it is not the marker for "none"; 0 (the root) is no sub item either.
  Sub links count only in a directory whose root storage is the first slot. -/
def linkUsed (rootId : Nat) (d : DirEntry) : Link → Prop
  | .sub => d.sub ≠ 0xffffffff ∧ d.sub ≠ 0 ∧ rootId = 0
  | .prev => d.prev ≠ 0xffffffff
  | .next => d.next ≠ 0xffffffff

instance (r d k) : Decidable (linkUsed r d k) := by
  cases k <;> unfold linkUsed <;> infer_instance

/-- The entry a link leads to: the first entry of the directory with that identifier, if the
  link is in use and there is one. -/
def target (list : List DirEntry) (rootId : Nat) (d : DirEntry) (k : Link) : Option DirEntry :=
  if linkUsed rootId d k then list.find? (fun x => x.id = linkId d k) else none

/-- The entry reached from `d` along a path of links. -/
def reach (list : List DirEntry) (rootId : Nat) : DirEntry → List Link → Option DirEntry
  | d, [] => some d
  | d, k :: ks => match target list rootId d k with
    | some c => reach list rootId c ks
    | none => none

/-- `x` is reached from `c` along sibling links only. -/
def Sibling (list : List DirEntry) (rootId : Nat) (c x : DirEntry) : Prop :=
  ∃ ks : List Link, .sub ∉ ks ∧ reach list rootId c ks = some x

/-- `x` is linked under `d`: reached from the target of the sub link of `d` along sibling
  links. -/
def LinkedUnder (list : List DirEntry) (rootId : Nat) (d x : DirEntry) : Prop :=
  ∃ c, target list rootId d .sub = some c ∧ Sibling list rootId c x

/-- No "next" link of `d` dangles. -/
def NextOk (list : List DirEntry) (rootId : Nat) (d : DirEntry) : Prop :=
  d.next = 0xffffffff ∨ (target list rootId d .next).isSome

/-- The comparison of the name of `d` with the names of the two summary information streams
  does not fail.  It takes place for names of exactly 28 and 20 bytes only. -/
def NameComparable (cmp : Bytes → Bytes → Option Bool) (d : DirEntry) : Prop :=
  (d.name.length = 28 → cmp docSummaryName d.name ≠ none) ∧
  (d.name.length = 20 → cmp summaryName d.name ≠ none)

/-- No entry is reached along two different paths of links from the root. -/
def UniquePaths (list : List DirEntry) (root : DirEntry) : Prop :=
  ∀ p q a b, reach list root.id root p = some a → reach list root.id root q = some b →
    a.id = b.id → p = q

end Olecf.Spec
