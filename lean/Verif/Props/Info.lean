import Verif.Props.Text
import Verif.Props.Export
import Verif.Props.ExportDoc
import Verif.Lemmas.Info

/-
  C77: olecfinfo lists the hierarchy of items.
-/

namespace Olecf.Props
open Olecf Olecf.Spec

/-! ### The list of an outline -/

theorem infoLoop_text {env : InfoEnv} {it : Item} {items : List Item} {kids : List Outline}
    {level : Nat} {f : Item → Printed Unit}
    (hg : ∀ (i : Nat) (c : Item), getSubItem env.tree it i = .ok c ↔ items[i]? = some c)
    (hl : items.length = kids.length)
    (hf : ∀ (i : Nat) (c : Item) (o : Outline), items[i]? = some c → kids[i]? = some o →
      f c = (listText env.signedChar (o.lines level), .ok ())) :
    ∀ (n i : Nat), i + n = kids.length →
      infoLoop env.tree it f n i = (listText env.signedChar (linesOf level (kids.drop i)), .ok ())
  | 0, i, h => by
    rw [List.drop_eq_nil_of_le (by omega)]
    rfl
  | n + 1, i, h => by
    have hi : i < kids.length := by omega
    have hc : items[i]? = some (items[i]'(by omega)) := List.getElem?_eq_getElem _
    rw [infoLoop, (hg i _).2 hc]
    dsimp only [printThen, quiet]
    rw [hf i _ _ hc (List.getElem?_eq_getElem hi)]
    dsimp only [printThen]
    rw [infoLoop_text hg hl hf n (i + 1) (by omega), List.drop_eq_getElem_cons hi, linesOf]
    simp [listText]

theorem infoItem_text {env : InfoEnv} {it : Item} {o : Outline}
    (ho : Outlined env.u env.io env.tree it o) : ∀ (n fuel level : Nat), n < fuel →
      NestedAtMost env.tree n it →
      infoItem env fuel level it = (listText env.signedChar (o.lines level), .ok ()) := by
  induction ho with
  | @node it name items kids hname hn hg hl hk ih =>
    intro n fuel level hlt hnest
    match fuel, hlt with
    | fuel + 1, hlt =>
      rw [infoItem, hname.1]
      dsimp only [printThen, quiet]
      rw [hname.2]
      dsimp only [infoName]
      rw [if_neg (by simp), Nat.add_sub_cancel, List.take_left']
      · dsimp only [printed]
        rw [hn, infoLoop_text (level := level + 1) hg hl ?_ items.length 0 (by omega), List.drop_zero,
          Outline.lines]
        · have h1 : infoChar env.signedChar = charText env.signedChar :=
            funext (infoChar_eq env.signedChar)
          have h2 : ascii " (" = ([0x20, 0x28] : Bytes) := by decide +kernel
          have h3 : ascii " bytes)\n" = bytesText := by decide +kernel
          simp [listText, lineText, h1, h2, h3, numberText_eq]
        · intro i c o hi ho
          match n, hnest with
          | 0, hnest =>
            have h0 : numberOfSubItems env.tree it = 0 := hnest
            have := (List.getElem?_eq_some_iff.1 hi).1
            omega
          | n + 1, hnest =>
            exact ih i c o hi ho n fuel (level + 1) (by omega) (hnest i c ((hg i c).2 hi))
      · rfl

/-- If the name of the first sub item cannot be had, only the line of the item is printed. -/
theorem infoItem_fails {env : InfoEnv} {it c : Item} {name : Bytes} {n : Nat}
    (hname : HasUtf8Name env.u env.io it name) (hn : numberOfSubItems env.tree it = n + 1)
    (hg : getSubItem env.tree it (0 : Nat) = .ok c) (hc : itemUtf8NameSize env.u env.io c = .err)
    (fuel level : Nat) :
    infoItem env (fuel + 2) level it =
      (lineText env.signedChar (level, name, it.entry.size), .err) := by
  rw [infoItem, hname.1]
  dsimp only [printThen, quiet]
  rw [hname.2]
  dsimp only [infoName]
  rw [if_neg (by simp), Nat.add_sub_cancel, List.take_left' rfl, hn, infoLoop, hg]
  dsimp only [printed, quiet, printThen]
  rw [infoItem, hc]
  dsimp only [quiet, printThen]
  have h1 : infoChar env.signedChar = charText env.signedChar := funext (infoChar_eq env.signedChar)
  have h2 : ascii " (" = ([0x20, 0x28] : Bytes) := by decide +kernel
  have h3 : ascii " bytes)\n" = bytesText := by decide +kernel
  simp [lineText, h1, h2, h3, numberText_eq]

/-- Every item whose name and whose sub items' names can be asked for has an outline. -/
theorem outlined_exists {u : Libuna} {io : IoHandle} {t : Tree} :
    ∀ (n : Nat) (it : Item), NestedAtMost t n it →
      (∀ p x, itemFrom t it p = some x → ∃ name, HasUtf8Name u io x name) →
      ∃ o, Outlined u io t it o := by
  intro n
  induction n with
  | zero =>
    intro it h hn
    obtain ⟨name, hname⟩ := hn [] it rfl
    have h0 : numberOfSubItems t it = 0 := h
    refine ⟨_, .node hname (items := []) (kids := []) h0 ?_ rfl ?_⟩
    · intro i c
      constructor
      · intro hi
        obtain ⟨e, he, _⟩ := getSubItem_ok.1 hi
        have := (List.getElem?_eq_some_iff.1 he).1
        unfold numberOfSubItems at h0
        omega
      · intro hi; cases hi
    · intro i c o hi; cases hi
  | succ n ih =>
    intro it h hn
    obtain ⟨name, hname⟩ := hn [] it rfl
    have hg : ∀ (i : Nat) (c : Item), getSubItem t it i = .ok c ↔
        ((t.kids it.node).map Item.ofEntry)[i]? = some c := by
      intro i c
      rw [getSubItem_ok, List.getElem?_map]
      constructor
      · rintro ⟨e, he, rfl⟩; rw [he]; rfl
      · intro hc
        obtain ⟨e, he, rfl⟩ := Option.map_eq_some_iff.1 hc
        exact ⟨e, he, rfl⟩
    have hex : ∀ i : Fin (t.kids it.node).length,
        ∃ o, Outlined u io t (Item.ofEntry (t.kids it.node)[i]) o := by
      intro i
      have hi : getSubItem t it (i : Nat) = .ok (Item.ofEntry (t.kids it.node)[i]) :=
        getSubItem_ok.2 ⟨_, List.getElem?_eq_getElem i.isLt, rfl⟩
      refine ih _ (h i _ hi) ?_
      intro p x hp
      refine hn ((i : Nat) :: p) x ?_
      rw [itemFrom, hi]
      exact hp
    refine ⟨_, .node hname (items := (t.kids it.node).map Item.ofEntry)
      (kids := List.ofFn fun i => Classical.choose (hex i)) ?_ hg ?_ ?_⟩
    · simp [numberOfSubItems]
    · simp
    · intro i c o hi ho
      rw [List.getElem?_ofFn] at ho
      split at ho
      · rename_i hlt
        cases ho
        rw [List.getElem?_map, List.getElem?_eq_getElem hlt] at hi
        cases hi
        exact Classical.choose_spec (hex ⟨i, hlt⟩)
      · cases ho

theorem infoItems_text {env : InfoEnv} {o : Outline}
    (ho : Outlined env.u env.io env.tree ⟨none, env.tree.root⟩ o) {n fuel : Nat} (hf : n < fuel)
    (hn : NestedAtMost env.tree n ⟨none, env.tree.root⟩) :
    infoItems env fuel (rootItem (some env.tree)) = (itemsText env.signedChar o, .ok ()) := by
  show infoItems env fuel (some _) = _
  unfold infoItems
  dsimp only [printed, printThen]
  rw [infoItem_text ho n fuel 0 hf hn]
  have h1 : ascii "\n" = ([0x0a] : Bytes) := by decide +kernel
  simp [itemsText, h1, itemsTitle]

theorem opened_nested (cmp : Bytes → Bytes → Option Bool) (h : HandleId) (flags : Nat)
    (flt : Faults) (st : FileState) (he : st.file.handle = none → st.file.Empty)
    (hok : (openHandle cmp h flags flt st).1 = .ok ()) (t : Tree)
    (ht : (openHandle cmp h flags flt st).2.file.tree = some t) :
    ∃ n, NestedAtMost t n ⟨none, t.root⟩ := by
  obtain ⟨f, list, m, _, _, _, _, _, _, _, htree, hnd, _⟩ :=
    C52_opened_well_formed cmp h flags flt st he hok t ht
  exact ⟨list.length, nestedAtMost_of_depth hnd htree _ [] _ rfl (by simp)⟩

/-! ### C77 -/

/-- C77: for every file that was opened and whose names can be asked for in UTF-8, the tool ends
  and prints the hierarchy that the library gives: an item on each line, indented by its level, with its name and its
  size, the sub items of an item behind it and in their order. -/
theorem C77_listing (cmp : Bytes → Bytes → Option Bool) (h : HandleId) (flags : Nat)
    (flt : Faults) (st : FileState) (he : st.file.handle = none → st.file.Empty)
    (hok : (openHandle cmp h flags flt st).1 = .ok ()) (t : Tree)
    (ht : (openHandle cmp h flags flt st).2.file.tree = some t)
    (u : Libuna) (signedChar : Bool)
    (hn : ∀ p it, itemAt t p = some it →
      ∃ name, HasUtf8Name u (openHandle cmp h flags flt st).2.file.io it name) :
    ∃ o, Outlined u (openHandle cmp h flags flt st).2.file.io t ⟨none, t.root⟩ o ∧
      ∃ n, ∀ fuel, n ≤ fuel →
        infoItems ⟨u, (openHandle cmp h flags flt st).2.file.io, t, signedChar⟩ fuel
          (rootItem (some t)) = (itemsText signedChar o, .ok ()) := by
  obtain ⟨n, hnest⟩ := opened_nested cmp h flags flt st he hok t ht
  obtain ⟨o, ho⟩ := outlined_exists n _ hnest hn
  exact ⟨o, ho, n + 1, fun fuel hf => infoItems_text ho (Nat.lt_of_lt_of_le (Nat.lt_succ_self n) hf) hnest⟩

/-- A copy into a string of the size that libuna gave fills the string up to the end of string
  character. -/
def CopyFills (u : Libuna) : Prop :=
  ∀ e n size name, u.size8 e n = some size → u.copy8 e n size = some name →
    size ≠ 0 ∧ size - 1 ≤ name.length

/-- The outcome of printing. -/
def NameFails (u : Libuna) (io : IoHandle) (it : Item) : Prop :=
  itemUtf8NameSize u io it = .err ∨
    ∃ size, itemUtf8NameSize u io it = .ok size ∧ itemUtf8Name u io it (some size) = .err

theorem infoLoop_safe {t : Tree} {it : Item} {f : Item → Printed Unit} {P : Prop}
    (hf : ∀ (i : Nat) (c : Item), getSubItem t it i = .ok c → (f c).2 = .ok () ∨ (f c).2 = .err ∧ P) :
    ∀ n i, i + n ≤ numberOfSubItems t it →
      (infoLoop t it f n i).2 = .ok () ∨ (infoLoop t it f n i).2 = .err ∧ P
  | 0, _, _ => Or.inl rfl
  | n + 1, i, h => by
    have hlt : i < (t.kids it.node).length := by unfold numberOfSubItems at h; omega
    have hi : getSubItem t it i = .ok (Item.ofEntry (t.kids it.node)[i]) :=
      getSubItem_ok.2 ⟨_, List.getElem?_eq_getElem hlt, rfl⟩
    rw [infoLoop, hi]
    dsimp only [printThen, quiet]
    have hc := hf i _ hi
    cases hfc : f (Item.ofEntry (t.kids it.node)[i]) with
    | mk out r =>
      rw [hfc] at hc
      dsimp only at hc
      rcases hc with rfl | ⟨rfl, hp⟩
      · exact infoLoop_safe hf n (i + 1) (by omega)
      · exact Or.inr ⟨rfl, hp⟩

theorem infoItem_safe {env : InfoEnv} (hu : CopyFills env.u) : ∀ (n fuel level : Nat) (it : Item),
    n < fuel → NestedAtMost env.tree n it →
    (infoItem env fuel level it).2 = .ok () ∨
      (infoItem env fuel level it).2 = .err ∧
        ∃ p x, itemFrom env.tree it p = some x ∧ NameFails env.u env.io x := by
  intro n fuel
  induction fuel generalizing n with
  | zero => intro _ _ h; omega
  | succ fuel ih =>
    intro level it hlt hnest
    rw [infoItem]
    unfold itemUtf8NameSize
    cases hs : env.u.size8 env.io.byteOrder it.entry.name with
    | none => exact Or.inr ⟨rfl, [], it, rfl, Or.inl (by unfold itemUtf8NameSize; rw [hs]; rfl)⟩
    | some size =>
      dsimp only [ofUna, quiet, printThen]
      have hsz : itemUtf8NameSize env.u env.io it = .ok size := by unfold itemUtf8NameSize; rw [hs]; rfl
      cases hnm : itemUtf8Name env.u env.io it (some size) with
      | ub => unfold itemUtf8Name ofUna at hnm; dsimp only at hnm; split at hnm <;> (try split at hnm) <;> cases hnm
      | hang => unfold itemUtf8Name ofUna at hnm; dsimp only at hnm; split at hnm <;> (try split at hnm) <;> cases hnm
      | err => exact Or.inr ⟨rfl, [], it, rfl, Or.inr ⟨size, hsz, hnm⟩⟩
      | ok name =>
        have hfill : size ≠ 0 ∧ size - 1 ≤ name.length := by
          unfold itemUtf8Name at hnm
          dsimp only at hnm
          split at hnm
          · cases hnm
          · cases hc : env.u.copy8 env.io.byteOrder it.entry.name size with
            | none => rw [hc] at hnm; cases hnm
            | some b =>
              rw [hc] at hnm
              cases hnm
              exact hu _ _ _ _ hs hc
        dsimp only [infoName]
        rw [if_neg (by omega)]
        dsimp only [printed]
        have key := infoLoop_safe (t := env.tree) (it := it) (f := infoItem env fuel (level + 1))
          (P := ∃ p x, itemFrom env.tree it p = some x ∧ NameFails env.u env.io x) ?_
          (numberOfSubItems env.tree it) 0 (by omega)
        · exact key
        · intro i c hi
          match n, hnest with
          | 0, hnest =>
            obtain ⟨e, he, _⟩ := getSubItem_ok.1 hi
            have := (List.getElem?_eq_some_iff.1 he).1
            have h0 : numberOfSubItems env.tree it = 0 := hnest
            unfold numberOfSubItems at h0
            omega
          | n + 1, hnest =>
            rcases ih n (level + 1) c (by omega) (hnest i c hi) with h | ⟨h, p, x, hp, hx⟩
            · exact Or.inl h
            · refine Or.inr ⟨h, i :: p, x, ?_, hx⟩
              rw [itemFrom, hi]
              exact hp

/-- C77, for all files: the tool ends without undefined behaviour, and it fails only if the name of an
  item cannot be had. -/
theorem C77_safe (cmp : Bytes → Bytes → Option Bool) (h : HandleId) (flags : Nat)
    (flt : Faults) (st : FileState) (he : st.file.handle = none → st.file.Empty)
    (hok : (openHandle cmp h flags flt st).1 = .ok ()) (t : Tree)
    (ht : (openHandle cmp h flags flt st).2.file.tree = some t)
    (u : Libuna) (hu : CopyFills u) (io : IoHandle) (signedChar : Bool) :
    ∃ n, ∀ fuel, n ≤ fuel →
      (infoItems ⟨u, io, t, signedChar⟩ fuel (rootItem (some t))).2 = .ok () ∨
      (infoItems ⟨u, io, t, signedChar⟩ fuel (rootItem (some t))).2 = .err ∧
        ∃ p it, itemAt t p = some it ∧ NameFails u io it := by
  obtain ⟨n, hnest⟩ := opened_nested cmp h flags flt st he hok t ht
  refine ⟨n + 1, fun fuel hf => ?_⟩
  have key := infoItem_safe (env := ⟨u, io, t, signedChar⟩) hu n fuel 0 ⟨none, t.root⟩ hf hnest
  show (infoItems _ fuel (some _)).2 = _ ∨ (infoItems _ fuel (some _)).2 = _ ∧ _
  unfold infoItems
  dsimp only [printed, printThen]
  cases hi : infoItem ⟨u, io, t, signedChar⟩ fuel 0 ⟨none, t.root⟩ with
  | mk out r =>
    rw [hi] at key
    dsimp only at key
    rcases key with rfl | ⟨rfl, hp⟩
    · exact Or.inl rfl
    · exact Or.inr ⟨rfl, hp⟩

/-- C77, what is printed can be read: lists are the same only for the same hierarchy, if no name is
  empty, starts with a space or has a backslash. -/
theorem C77_readable_partial (signedChar : Bool) (o p : Outline)
    (ho : ∀ n, InOutline n o → n ≠ [] ∧ n.head? ≠ some 0x20 ∧ (0x5c : UInt8) ∉ n)
    (hp : ∀ n, InOutline n p → n ≠ [] ∧ n.head? ≠ some 0x20 ∧ (0x5c : UInt8) ∉ n)
    (h : itemsText signedChar o = itemsText signedChar p) : o = p := by
  unfold itemsText at h
  have h1 := List.append_cancel_left (List.append_cancel_right h)
  have h2 := listText_inj (fun l hl => ho _ (lines_names o 0 l hl))
    (fun l hl => hp _ (lines_names p 0 l hl)) h1
  exact (lines_inj o p 0 [] [] (fun l h => (by cases h)) (fun l h => (by cases h))
    (by rw [h2])).1

/-! ### Stored documents -/

theorem hasName_utf8 {u : Libuna} {io : IoHandle} {it : Item} {cs : List Nat}
    (h : HasName u io it cs) (hs : (cs.flatMap encode8).length + 1 ≤ 2 ^ 63 - 1) :
    HasUtf8Name u io it (cs.flatMap encode8) :=
  ⟨h.size8, h.name8 _ (Nat.le_refl _) hs⟩

theorem encode8_length (c : Nat) : (encode8 c).length ≤ 4 := by
  unfold encode8 String.utf8EncodeChar
  dsimp only
  split
  · simp
  · split
    · simp
    · split <;> simp

theorem encode8s_length (cs : List Nat) : (cs.flatMap encode8).length ≤ 4 * cs.length := by
  induction cs with
  | nil => simp
  | cons c cs ih =>
    have := encode8_length c
    rw [List.flatMap_cons, List.length_append, List.length_cons]
    omega

theorem encode16_length (c : Nat) : 1 ≤ (encode16 c).length := by
  unfold encode16
  split <;> simp

theorem storedName_length (e : Endian) (cs : List Nat) : cs.length ≤ (storedName e cs).length := by
  have h1 : ∀ us : List UInt16, us.length ≤ (us.flatMap (unitBytes e)).length := by
    intro us
    induction us with
    | nil => simp
    | cons a us ih =>
      rw [List.flatMap_cons, List.length_append, List.length_cons]
      have : (unitBytes e a).length = 2 := by cases e <;> rfl
      omega
  have h2 : cs.length ≤ (cs.flatMap encode16).length := by
    induction cs with
    | nil => simp
    | cons c cs ih =>
      have := encode16_length c
      rw [List.flatMap_cons, List.length_append, List.length_cons]
      omega
  have := h1 (cs.flatMap encode16)
  unfold storedName
  rw [List.length_append]
  omega

/-- The outline of an item that shows a document. -/
theorem shows_outline {u : Libuna} (hu : IsLibuna u) {io : IoHandle} {t : Tree} {f : FileCtx}
    (hlen : ∀ p x, itemAt t p = some x → x.entry.name.length ≤ 64)
    (hsize : ∀ p x, itemAt t p = some x → p ≠ [] → x.entry.type ≠ 2 → x.entry.size = 0)
    {it : Item} {doc : Doc} (hs : Shows t f it doc) :
    ∀ (p : List Nat) (name : Bytes), itemAt t p = some it → TextNames io.byteOrder doc →
      HasUtf8Name u io it name →
      ∃ os z, Outlined u io t it (.node name it.entry.size os) ∧
        Depicts io.byteOrder doc (.node name z os) ∧ (p ≠ [] → z = it.entry.size) := by
  induction hs with
  | @stream it data ht h0 hz hr =>
    intro p name hp _ hn
    refine ⟨[], data.length, .node hn (items := []) h0 ?_ rfl ?_, .stream, fun _ => hz.symm⟩
    · intro i c
      constructor
      · intro hi
        obtain ⟨e, he, _⟩ := getSubItem_ok.1 hi
        have := (List.getElem?_eq_some_iff.1 he).1
        unfold numberOfSubItems at h0
        omega
      · intro hi; cases hi
    · intro i c o hi; cases hi
  | @storage it kids kids' items ht hn hg hperm hl hname hsub ih =>
    intro p name hp htext hnm
    have hex : ∀ i : Fin items.length, ∃ (o : Outline) (k : Bytes × Doc) (cs : List Nat),
        kids'[(i : Nat)]? = some k ∧ NameText cs ∧ k.1 = storedName io.byteOrder cs ∧
        o.name = cs.flatMap encode8 ∧ Outlined u io t items[i] o ∧ Depicts io.byteOrder k.2 o := by
      intro i
      have hlt : (i : Nat) < kids'.length := by omega
      have hk := List.getElem?_eq_getElem hlt
      have hi : items[(i : Nat)]? = some items[i] := List.getElem?_eq_getElem i.isLt
      have hmem : kids'[(i : Nat)] ∈ kids := hperm.mem_iff.1 (List.getElem_mem hlt)
      obtain ⟨cs, hcs, he⟩ := htext.text [] kids'[(i : Nat)].1 kids'[(i : Nat)].2
        (.sub (path := []) .here hmem)
      have hq : itemAt t (p ++ [(i : Nat)]) = some items[i] :=
        (itemFrom_snoc _ p _ _ _).2 ⟨it, hp, (hg _ _).2 hi⟩
      have hent := hname i _ _ hi hk
      have hle := hlen _ _ hq
      rw [hent, he] at hle
      have h1 := storedName_length io.byteOrder cs
      have h2 := encode8s_length cs
      have hn8 := hasName_utf8 (stored_hasName hu hcs (hent.trans he)) (by omega)
      obtain ⟨os, z, k1, k2, k3⟩ := ih i _ _ hi hk (p ++ [(i : Nat)]) _ hq
        (textNames_kid htext hmem) hn8
      have hz := k3 (by simp)
      rw [hz] at k2
      exact ⟨_, _, cs, hk, hcs, he, rfl, k1, k2⟩
    refine ⟨List.ofFn fun i => Classical.choose (hex i), 0, .node hnm hn hg (by simp) ?_,
      .storage hperm (by simp [hl]) ?_ ?_, ?_⟩
    · intro i c o hi ho
      rw [List.getElem?_ofFn] at ho
      split at ho
      · rename_i hlt
        cases ho
        rw [List.getElem?_eq_getElem hlt] at hi
        cases hi
        obtain ⟨_, _, _, _, _, _, h, _⟩ := Classical.choose_spec (hex ⟨i, hlt⟩)
        exact h
      · cases ho
    · intro i o k ho hk
      rw [List.getElem?_ofFn] at ho
      split at ho
      · rename_i hlt
        cases ho
        obtain ⟨k', cs, h1, h2, h3, h4, _, _⟩ := Classical.choose_spec (hex ⟨i, hlt⟩)
        dsimp only at h1
        rw [hk] at h1
        cases h1
        exact ⟨cs, h2, h3, h4⟩
      · cases ho
    · intro i o k ho hk
      rw [List.getElem?_ofFn] at ho
      split at ho
      · rename_i hlt
        cases ho
        obtain ⟨k', cs, h1, _, _, _, _, h⟩ := Classical.choose_spec (hex ⟨i, hlt⟩)
        dsimp only at h1
        rw [hk] at h1
        cases h1
        exact h
      · cases ho
    · intro hne
      refine (hsize p it hp hne ?_).symm
      rcases ht with ht | ht <;> rw [ht] <;> decide

/-- The characters of `Root Entry`. -/
def rootText : List Nat := [82, 111, 111, 116, 32, 69, 110, 116, 114, 121]

theorem rootName_text (e : Endian) : rootName e = storedName e rootText := by
  cases e <;> decide +kernel

/-- C77, for stored documents: the list is that of the document, its streams with the sizes of their
  data, below an item with the name `Root Entry`. -/
theorem C77_written_document_listed {u : Libuna} (hu : IsLibuna u) (signedChar : Bool) (w : Writer)
    (kids : List (Bytes × Doc)) (hst : Storable w kids) (hn : TextNames w.order (.storage kids))
    (st : FileState) (hr : Reachable (u.cmp8 w.order) st) (hclosed : st.file.handle = none)
    (h : HandleId) (hdev : st.world.dev h = Dev.ofBytes (encodeFile w kids))
    (flags : Nat) (hfl : flags % 4 = 1) :
    (openHandle (u.cmp8 w.order) h flags {} st).1 = .ok () ∧
    ∃ t os n, (openHandle (u.cmp8 w.order) h flags {} st).2.file.tree = some t ∧
      Depicts w.order (.storage kids) (.node (ascii "Root Entry") 0 os) ∧
      ∀ fuel, n ≤ fuel →
        infoItems ⟨u, (openHandle (u.cmp8 w.order) h flags {} st).2.file.io, t, signedChar⟩ fuel
          (rootItem (some t)) =
        (itemsText signedChar (.node (ascii "Root Entry") (containerOf w kids).length os), .ok ()) := by
  have hcmp : ∀ n ∈ namesOfKids kids, Comparable (u.cmp8 w.order) n := by
    intro n hm
    obtain ⟨path, d, hd⟩ := namesOfKids_docAt kids n hm
    obtain ⟨cs, h1, rfl⟩ := hn.text path n d hd
    exact text_comparable hu h1
  have hcmp' : ∀ n ∈ (entriesOfSlots (slotsOfFile w kids)).map (·.name),
      Comparable (u.cmp8 w.order) n := by
    rw [slotsOfFile_names hst]
    intro n hm
    rcases List.mem_cons.1 hm with rfl | hm
    · exact rootName_comparable _ _
    · exact hcmp n hm
  have hok := (C60_written_document_shown w kids hst _ hcmp st hr hclosed h hdev flags hfl).1
  refine ⟨hok, ?_⟩
  obtain ⟨l, hdr, t0, list, tree, ho, hfile, hworld⟩ := openHandle_loaded (reachable_inv hr).closed hok
  obtain ⟨h1, h2⟩ := openCore_ok_iff.2 ⟨_, _, _, _, ho⟩
  obtain ⟨l', t, m, hl', ht, htree, hfits, hwf, hsec, hse, hroot, hs⟩ :=
    heldBy_loaded (encodeFile_held hst) _ hcmp' st.file.io
  rw [hdev] at h1 h2
  rw [h1] at hl'
  cases hl'
  have hnd := entriesOfSlots_nodup (slotsOfFile w kids)
  have huniq := (C16_no_item_twice _ _ hnd _ m htree).2
  have hmem := (C16_no_item_twice _ _ hnd _ m htree).1
  have hbo := opened_byteOrder hr hdev (encodeFile_layout hst).fits (encodeFile_layout hst).header hok
  have htr : (openHandle (u.cmp8 w.order) h flags {} st).2.file.tree = some t := by rw [hfile]; exact ht
  obtain ⟨n, hnest⟩ := opened_nested _ h flags {} st (reachable_inv hr).closed hok t htr
  -- the root entry
  have hre : t.root.name = rootName w.order ∧ t.root.size = (containerOf w kids).length := by
    obtain ⟨i, s, hs, hused, he⟩ := entriesOfSlots_mem.1 (hmem [] _ rfl)
    have hi : i = 0 := by
      have := congrArg DirEntry.id he
      exact (hroot.symm.trans this).symm
    subst hi
    have hs : some (rootSlot w kids) = some s := hs
    cases hs
    have he : t.root = (rootSlot w kids).entry 0 := he
    rw [he]
    refine ⟨?_, rfl⟩
    show ((rootName w.order) ++ _).take (rootName w.order).length = _
    exact List.take_left' rfl
  have hlen : ∀ p x, itemAt t p = some x → x.entry.name.length ≤ 64 := by
    intro p x hp
    have : x.entry.name ∈ (entriesOfSlots (slotsOfFile w kids)).map (·.name) :=
      List.mem_map_of_mem (hmem p x hp)
    rw [slotsOfFile_names hst] at this
    rcases List.mem_cons.1 this with h | h
    · rw [h, rootName_length]; decide
    · exact hst.names _ h
  have hsize : ∀ p x, itemAt t p = some x → p ≠ [] → x.entry.type ≠ 2 → x.entry.size = 0 := by
    intro p x hp hne hty
    obtain ⟨i, s, hs, hused, he⟩ := entriesOfSlots_mem.1 (hmem p x hp)
    have hi0 : i ≠ 0 := by
      rintro rfl
      have hid : x.entry.id = t.root.id := by rw [he, hroot]; rfl
      exact hne (huniq p [] x ⟨none, t.root⟩ hp rfl hid)
    rw [he] at hty ⊢
    unfold slotsOfFile padUp at hs
    rcases i with _ | i
    · exact absurd rfl hi0
    · rw [List.cons_append, List.getElem?_cons_succ] at hs
      rcases List.mem_append.1 (List.mem_of_getElem? hs) with hm | hm
      · exact (slotsOfKids_size _ _ _ _ _ s hm).resolve_left hty
      · rw [(List.mem_replicate.1 hm).2]; rfl
  have hname : HasUtf8Name u (openHandle (u.cmp8 w.order) h flags {} st).2.file.io ⟨none, t.root⟩
      (ascii "Root Entry") := by
    have hx := stored_hasName hu (io := (openHandle (u.cmp8 w.order) h flags {} st).2.file.io)
      (it := ⟨none, t.root⟩) (cs := rootText) (by decide) (by
        rw [hbo]; exact hre.1.trans (rootName_text _))
    have := hasName_utf8 hx (by decide +kernel)
    have he : rootText.flatMap encode8 = ascii "Root Entry" := by decide +kernel
    rwa [he] at this
  obtain ⟨os, z, k1, k2, _⟩ := shows_outline hu hlen hsize hs [] _ rfl (by rw [hbo]; exact hn) hname
  rw [hbo] at k2
  rw [hre.2] at k1
  have hz : z = 0 := by cases k2; rfl
  rw [hz] at k2
  exact ⟨t, os, n + 1, htr, k2, fun fuel hf => infoItems_text
    (env := ⟨u, (openHandle (u.cmp8 w.order) h flags {} st).2.file.io, t, signedChar⟩) k1 hf hnest⟩

/-! ### Examples -/

/-- The hierarchy of a root with a storage `a` that has a stream `b` of 20 bytes. -/
def nestedDir : List DirEntry :=
  [exportEntry 0 5 (storedName .little [0x52]) 0xffffffff 1 0 0,
   exportEntry 1 1 (storedName .little [0x61]) 0xffffffff 2 0 0,
   exportEntry 2 2 (storedName .little [0x62]) 0xffffffff 0xffffffff 2 20]

/-- The hierarchy of a root with a storage `a` and a stream of 20 bytes with a name of two spaces and
  `b`. -/
def spacedDir : List DirEntry :=
  [exportEntry 0 5 (storedName .little [0x52]) 0xffffffff 1 0 0,
   exportEntry 1 1 (storedName .little [0x61]) 2 0xffffffff 0 0,
   exportEntry 2 2 (storedName .little [0x20, 0x20, 0x62]) 0xffffffff 0xffffffff 2 20]

/-- A root with a stream of the given name. -/
def namedDir (name : Bytes) : List DirEntry :=
  [exportEntry 0 5 (storedName .little [0x52]) 0xffffffff 1 0 0,
   exportEntry 1 2 name 2 0xffffffff 2 20,
   exportEntry 2 2 (storedName .little [0x62]) 0xffffffff 0xffffffff 2 20]

def infoEnv (u : Libuna) (list : List DirEntry) (signedChar : Bool) : InfoEnv :=
  ⟨u, sampleCtx.io, treeOf list, signedChar⟩

/-- What is printed for the first hierarchy. -/
example : infoItems (infoEnv plainUna nestedDir true) 3 (rootItem (some (treeOf nestedDir))) =
    (ascii "Storage and stream items:\nR (0 bytes)\n  a (0 bytes)\n    b (20 bytes)\n\n", .ok ()) := by
  decide +kernel

/-- The names of the stored document of `Props/Text.lean` can be asked for, its list is that of the
  document (C77_written_document_listed). -/
example (e : Endian) : ∃ st, (openHandle (plainUna.cmp8 e) (.user 1) 1 {} st).1 = .ok () ∧
    ∃ t os n, (openHandle (plainUna.cmp8 e) (.user 1) 1 {} st).2.file.tree = some t ∧
      Depicts e (.storage (unicodeDoc e)) (.node (ascii "Root Entry") 0 os) ∧
      ∀ fuel, n ≤ fuel →
        (infoItems ⟨plainUna, (openHandle (plainUna.cmp8 e) (.user 1) 1 {} st).2.file.io, t, true⟩ fuel
          (rootItem (some t))).2 = .ok () := by
  have hr : Reachable (plainUna.cmp8 e) ⟨OleFile.new, { sampleWorld with
      dev := fun _ => Dev.ofBytes (encodeFile ⟨e, 9, 6, 4096, {}⟩ (unicodeDoc e)) }⟩ :=
    ⟨_, [], ⟨rfl, rfl⟩, rfl⟩
  obtain ⟨h1, t, os, n, h2, h3, h4⟩ := C77_written_document_listed plainUna_isLibuna true
    ⟨e, 9, 6, 4096, {}⟩ (unicodeDoc e) (unicodeDoc_storable e) (unicodeDoc_text e) _ hr rfl (.user 1) rfl 1 rfl
  exact ⟨_, h1, t, os, n, h2, h3, fun fuel hf => by rw [h4 fuel hf]⟩

/-- The libuna of the examples fills the strings it copies to (C77_safe). -/
theorem plainUna_fills : CopyFills plainUna := by
  intro e n size name h1 h2
  have h1 : (textOf e n).map (fun cs => (cs.flatMap encode8).length + 1) = some size := h1
  have h2 : ((textOf e n).bind fun cs => if (cs.flatMap encode8).length + 1 ≤ size then
    some (cs.flatMap encode8 ++ [0]) else none) = some name := h2
  cases ht : textOf e n with
  | none => rw [ht] at h1; cases h1
  | some cs =>
    rw [ht] at h1 h2
    cases h1
    rw [Option.bind_some, if_pos (Nat.le_refl _)] at h2
    cases h2
    exact ⟨Nat.succ_ne_zero _, by simp⟩

/-- The names of the first hierarchy are readable (C77_readable_partial). -/
example : ∀ n, InOutline n (.node [0x52] 0 [.node [0x61] 0 [.node [0x62] 20 []]]) →
    n ≠ [] ∧ n.head? ≠ some 0x20 ∧ (0x5c : UInt8) ∉ n := by
  intro n h
  have hb : ∀ {n}, InOutline n (.node [0x62] 20 []) → n = [0x62] := by
    intro n h
    cases h with
    | here => rfl
    | sub hm _ => cases hm
  have ha : ∀ {n}, InOutline n (.node [0x61] 0 [.node [0x62] 20 []]) → n = [0x61] ∨ n = [0x62] := by
    intro n h
    cases h with
    | here => exact Or.inl rfl
    | sub hm h => rw [List.mem_singleton] at hm; subst hm; exact Or.inr (hb h)
  cases h with
  | here => decide
  | sub hm h =>
    rw [List.mem_singleton] at hm
    subst hm
    rcases ha h with rfl | rfl <;> decide

/-- C77 is violated: a stream below a storage and a stream beside it, with a name that starts with spaces, give
  the same list. -/
theorem C77_indentation_violated :
    infoItems (infoEnv plainUna nestedDir true) 3 (rootItem (some (treeOf nestedDir))) =
      infoItems (infoEnv plainUna spacedDir true) 3 (rootItem (some (treeOf spacedDir))) ∧
    numberOfSubItems (treeOf nestedDir) ⟨none, (treeOf nestedDir).root⟩ = 1 ∧
    numberOfSubItems (treeOf spacedDir) ⟨none, (treeOf spacedDir).root⟩ = 2 := by
  decide +kernel

/-- C77 is violated: the name that is the character U+0001 and the name `\x01` of four characters give the same
  list. -/
theorem C77_backslash_violated :
    infoItems (infoEnv plainUna (namedDir (storedName .little [1])) true) 3
        (rootItem (some (treeOf (namedDir (storedName .little [1]))))) =
      infoItems (infoEnv plainUna (namedDir (storedName .little [0x5c, 0x78, 0x30, 0x31])) true) 3
        (rootItem (some (treeOf (namedDir (storedName .little [0x5c, 0x78, 0x30, 0x31]))))) := by
  decide +kernel

/-- C77 is violated: where `char` is signed the name `ä` is printed as the bytes of its encoding, not as
  a character. -/
theorem C77_non_ascii_violated :
    (infoItems (infoEnv plainUna (namedDir (storedName .little [0xe4])) true) 3
        (rootItem (some (treeOf (namedDir (storedName .little [0xe4])))))).1 =
      ascii "Storage and stream items:\nR (0 bytes)\n  \\xc3\\xa4 (20 bytes)\n  b (20 bytes)\n\n" ∧
    (infoItems (infoEnv plainUna (namedDir (storedName .little [0xe4])) false) 3
        (rootItem (some (treeOf (namedDir (storedName .little [0xe4])))))).1 =
      ascii "Storage and stream items:\nR (0 bytes)\n  ä (20 bytes)\n  b (20 bytes)\n\n" := by
  decide +kernel

/-- C77 is violated: an item without a name, which libuna refuses, ends the list: the items behind it are not
  printed, and the tool fails. -/
theorem C77_unnamed_violated (u : Libuna) (hu : IsLibuna u) (hnull : ∀ e, u.size8 e [] = none)
    (signedChar : Bool) (fuel : Nat) :
    infoItems (infoEnv u (namedDir []) signedChar) (fuel + 2) (rootItem (some (treeOf (namedDir [])))) =
      (ascii "Storage and stream items:\nR (0 bytes)\n", .err) := by
  have hroot : (treeOf (namedDir [])).root =
      exportEntry 0 5 (storedName .little [0x52]) 0xffffffff 1 0 0 := by decide +kernel
  have hkid : getSubItem (treeOf (namedDir [])) ⟨none, (treeOf (namedDir [])).root⟩ (0 : Nat) =
      .ok (.ofEntry (exportEntry 1 2 [] 2 0xffffffff 2 20)) := by decide +kernel
  have hnum : numberOfSubItems (treeOf (namedDir [])) ⟨none, (treeOf (namedDir [])).root⟩ = 1 + 1 := by
    decide +kernel
  have hbo : sampleCtx.io.byteOrder = .little := by decide +kernel
  have he : ([0x52] : List Nat).flatMap encode8 = [0x52] := by decide +kernel
  have hname : HasUtf8Name u sampleCtx.io ⟨none, (treeOf (namedDir [])).root⟩ [0x52] := by
    have := hasName_utf8 (stored_hasName hu (io := sampleCtx.io)
      (it := ⟨none, (treeOf (namedDir [])).root⟩) (cs := [0x52]) (by decide)
      (by rw [hbo, hroot]; rfl)) (by rw [he]; decide)
    rwa [he] at this
  have key := infoItem_fails (env := infoEnv u (namedDir []) signedChar) hname hnum hkid
    (congrArg ofUna (hnull _))
    fuel 0
  show infoItems _ _ (some _) = _
  unfold infoItems
  dsimp only [printed, printThen]
  rw [key, hroot]
  show (itemsTitle ++ lineText signedChar (0, [0x52], 0), Res.err) = _
  revert signedChar
  clear hu hnull
  intro s _
  clear * -
  cases s <;> decide +kernel

end Olecf.Props
