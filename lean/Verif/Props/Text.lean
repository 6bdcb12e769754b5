import Verif.Props.RoundTrip
import Verif.Props.Item
import Verif.Lemmas.Text

/-
  C76: names and paths are Unicode strings.
-/

namespace Olecf.Props
open Olecf Olecf.Spec

/-! ### The parts of a document -/

theorem docAt_cons {kids : List (Bytes × Doc)} {n : Bytes} {k : Doc} (hm : (n, k) ∈ kids)
    {path : List Bytes} {d : Doc} (h : DocAt k path d) : DocAt (.storage kids) (n :: path) d := by
  induction h with
  | here => exact .sub .here hm
  | @sub path ks m d _ hk ih => exact .sub (path := n :: path) ih hk

theorem docAt_uncons {doc : Doc} {path : List Bytes} {d : Doc} (h : DocAt doc path d) :
    (path = [] ∧ d = doc) ∨
      ∃ n rest kids k, path = n :: rest ∧ doc = .storage kids ∧ (n, k) ∈ kids ∧ DocAt k rest d := by
  induction h with
  | here => exact Or.inl ⟨rfl, rfl⟩
  | @sub path ks m d h hm ih =>
    refine Or.inr ?_
    rcases ih with ⟨rfl, hd⟩ | ⟨n, rest, kids, k, rfl, rfl, hk, hr⟩
    · exact ⟨m, [], ks, d, rfl, hd.symm, hm, .here⟩
    · exact ⟨n, rest ++ [m], kids, k, rfl, rfl, hk, .sub hr hm⟩

theorem textNames_kid {e : Endian} {kids : List (Bytes × Doc)} (h : TextNames e (.storage kids))
    {n : Bytes} {k : Doc} (hm : (n, k) ∈ kids) : TextNames e k where
  text path m d hd := h.text (n :: path) m d (docAt_cons hm hd)
  distinct path ks hd := h.distinct (n :: path) ks (docAt_cons hm hd)

mutual
theorem names_docAt (doc : Doc) : ∀ n ∈ doc.names, ∃ path d, DocAt doc (path ++ [n]) d := by
  match doc with
  | .stream data =>
    intro n hn
    rw [Doc.names] at hn
    cases hn
  | .storage kids =>
    intro n hn
    rw [Doc.names] at hn
    exact namesOfKids_docAt kids n hn

theorem namesOfKids_docAt (kids : List (Bytes × Doc)) : ∀ n ∈ namesOfKids kids,
    ∃ path d, DocAt (.storage kids) (path ++ [n]) d := by
  match kids with
  | [] =>
    intro n hn
    rw [namesOfKids] at hn
    cases hn
  | (m, k) :: r =>
    intro n hn
    rw [namesOfKids, List.mem_cons, List.mem_append] at hn
    rcases hn with rfl | hn | hn
    · exact ⟨[], k, .sub .here (by simp)⟩
    · obtain ⟨path, d, h⟩ := names_docAt k n hn
      exact ⟨m :: path, d, docAt_cons (by simp) h⟩
    · obtain ⟨path, d, h⟩ := namesOfKids_docAt r n hn
      rcases docAt_uncons h with ⟨h, _⟩ | ⟨a, rest, kids, k', h1, h2, h3, h4⟩
      · simp at h
      · cases h2
        exact ⟨path, d, by rw [h1]; exact docAt_cons (by simp [h3]) h4⟩
end

/-! ### Paths -/

theorem decodes_text {dec : Decoder α} {enc : Nat → List α} (h : IsEncoding dec enc) :
    ∀ {cs : List Nat} {rest : List α} {ds : List (Nat × List α)}, (∀ c ∈ cs, Scalar c) →
      Decodes dec rest ds → Decodes dec (cs.flatMap enc ++ rest) (cs.map (fun c => (c, enc c)) ++ ds)
  | [], _, _, _, hd => hd
  | c :: cs, rest, ds, hc, hd => by
    have hs := hc c (by simp)
    rw [List.flatMap_cons, List.append_assoc]
    exact .cons (h.nonempty c hs) (h.step c _ hs)
      (decodes_text h (fun x hx => hc x (by simp [hx])) hd)

/-- The characters of a path. -/
def pathUnits (enc : Nat → List α) (names : List (List Nat)) : List (Nat × List α) :=
  names.flatMap fun cs => (0x5c, enc 0x5c) :: cs.map fun c => (c, enc c)

theorem scalar_sep : Scalar 0x5c := by decide

theorem decodes_path {dec : Decoder α} {enc : Nat → List α} (h : IsEncoding dec enc) :
    ∀ {names : List (List Nat)}, (∀ cs ∈ names, ∀ c ∈ cs, Scalar c) →
      Decodes dec (pathText enc names) (pathUnits enc names)
  | [], _ => .nil
  | cs :: names, hn => by
    have ih := decodes_path h (names := names) fun x hx => hn x (by simp [hx])
    have h1 := decodes_text h (cs := cs) (hn cs (by simp)) ih
    have h2 := decodes_text h (cs := [0x5c]) (by
      intro c hc
      rw [List.mem_singleton.1 hc]
      exact scalar_sep) h1
    simpa [pathText, pathUnits] using h2

theorem components_text {enc : Nat → List α} : ∀ (cs : List Nat) (ds : List (Nat × List α))
    (current : List α), (∀ c ∈ cs, c ≠ 0 ∧ c ≠ 0x5c) →
    components (cs.map (fun c => (c, enc c)) ++ ds) current =
      components ds (current ++ cs.flatMap enc)
  | [], ds, current, _ => by simp
  | c :: cs, ds, current, h => by
    have := h c (by simp)
    rw [List.map_cons, List.cons_append, components, if_neg (by
      unfold EndsComponent; omega), components_text cs ds _ fun x hx => h x (by simp [hx]),
      List.flatMap_cons, List.append_assoc]

theorem components_path {enc : Nat → List α} : ∀ (names : List (List Nat)) (current : List α),
    (∀ cs ∈ names, ∀ c ∈ cs, c ≠ 0 ∧ c ≠ 0x5c) → (∀ cs ∈ names, cs.flatMap enc ≠ []) →
    current ≠ [] →
    components (pathUnits enc names) current = current :: names.map (·.flatMap enc)
  | [], current, _, _, hc => by
    show components [] current = _
    rw [components, if_neg (by
      intro h; exact hc (List.length_eq_zero_iff.1 h))]
    rfl
  | cs :: names, current, h, hne, hc => by
    have : pathUnits enc (cs :: names) =
        (0x5c, enc 0x5c) :: (cs.map (fun c => (c, enc c)) ++ pathUnits enc names) := rfl
    rw [this, components, if_pos (show EndsComponent 0x5c from Or.inl rfl), components_text cs _ _ (h cs (by simp)), List.nil_append,
      components_path names _ (fun x hx => h x (by simp [hx])) (fun x hx => hne x (by simp [hx]))
        (hne cs (by simp))]
    rfl

theorem text_ne {dec : Decoder α} {enc : Nat → List α} (h : IsEncoding dec enc) {cs : List Nat}
    (hc : NameText cs) : cs.flatMap enc ≠ [] := by
  match cs, hc.chars.1, hc.chars.2 with
  | c :: cs, _, hs =>
    intro he
    rw [List.flatMap_cons, List.append_eq_nil_iff] at he
    exact h.nonempty c (hs c (by simp)).1 he.1

/-- Lookup by path is lookup of the names one after the other. -/
theorem itemByPath_walk [DecidableEq α] {dec : Decoder α} {enc : Nat → List α}
    (h : IsEncoding dec enc) (cmp : List α → Bytes → Option Bool) (t : Tree) (it : Item)
    {names : List (List Nat)} (hn : ∀ cs ∈ names, NameText cs ∧ 0x5c ∉ cs) :
    itemByPath dec cmp (some t) (some it) (pathText enc names) =
      walk (getSubItemByName cmp t) it (names.map (·.flatMap enc)) := by
  match names, hn with
  | [], _ => rfl
  | cs :: names, hn =>
    have hcs := hn cs (by simp)
    have hne := text_ne h hcs.1
    have hchars : ∀ x ∈ cs :: names, ∀ c ∈ x, c ≠ 0 ∧ c ≠ 0x5c := by
      intro x hx c hc
      refine ⟨((hn x hx).1.chars.2 c hc).2, fun he => (hn x hx).2 ?_⟩
      rw [← he]; exact hc
    have hsc : ∀ x ∈ cs :: names, ∀ c ∈ x, Scalar c := fun x hx c hc => ((hn x hx).1.chars.2 c hc).1
    have hp : pathText enc (cs :: names) = dec.sep :: (cs.flatMap enc ++ pathText enc names) := by
      show (enc 0x5c ++ cs.flatMap enc) ++ pathText enc names = _
      rw [h.sep]; rfl
    have hdec : Decodes dec (cs.flatMap enc ++ pathText enc names)
        (cs.map (fun c => (c, enc c)) ++ pathUnits enc names) :=
      decodes_text h (hsc cs (by simp)) (decodes_path h fun x hx => hsc x (by simp [hx]))
    rw [C22_path_lookup_partial dec cmp t it (pathText enc (cs :: names))
      (cs.map (fun c => (c, enc c)) ++ pathUnits enc names) ?_ ?_ ?_]
    · rw [components_text cs _ _ (hchars cs (by simp)), List.nil_append,
        components_path names _ (fun x hx => hchars x (by simp [hx]))
          (fun x hx => text_ne h (hn x (by simp [hx])).1) hne]
      rfl
    · refine Or.inl ?_
      rw [hp]
      have := List.length_pos_iff.2 hne
      simp only [List.length_cons, List.length_append]
      omega
    · rw [hp]
      unfold afterLeading
      dsimp only
      rw [if_pos rfl]
      exact hdec
    · intro x hx he
      rcases List.mem_append.1 hx with hx | hx
      · obtain ⟨c, hc, rfl⟩ := List.mem_map.1 hx
        have := hchars cs (by simp) c hc
        unfold EndsComponent at he
        dsimp only at he
        omega
      · obtain ⟨y, hy, hx⟩ := List.mem_flatMap.1 hx
        rcases List.mem_cons.1 hx with rfl | hx
        · dsimp only
          rw [h.sep]; rfl
        · obtain ⟨c, hc, rfl⟩ := List.mem_map.1 hx
          have := hchars y (by simp [hy]) c hc
          unfold EndsComponent at he
          dsimp only at he
          omega

/-! ### Lookup in a hierarchy of items that shows a document -/

/-- The comparison is the equality of strings of characters. -/
def ComparesText (e : Endian) (enc : Nat → List α) (cmp : List α → Bytes → Option Bool) : Prop :=
  ∀ a b, NameText a → NameText b → cmp (a.flatMap enc) (storedName e b) = some (decide (a = b))

/-- Lookup of a name among the items of a storage: the item found does not depend on the encoding. -/
theorem shown_name {e : Endian} {t : Tree} {f : FileCtx} {it : Item} {doc : Doc}
    (hs : Shows t f it doc) (hd : TextNames e doc) {cs : List Nat} (hc : NameText cs) :
    (∀ kids k, doc = .storage kids → (storedName e cs, k) ∈ kids →
      ∃ x, Shows t f x k ∧ x.entry.name = storedName e cs ∧
        ∀ (α : Type) (enc : Nat → List α) cmp, ComparesText e enc cmp →
          getSubItemByName cmp t it (cs.flatMap enc) = .ok (some x)) ∧
    ((∀ kids k, doc = .storage kids → (storedName e cs, k) ∉ kids) →
      ∀ (α : Type) (enc : Nat → List α) cmp, ComparesText e enc cmp →
        getSubItemByName cmp t it (cs.flatMap enc) = .ok none) := by
  cases hs with
  | stream _ h0 _ _ =>
    refine ⟨fun kids k h => (by cases h), fun _ α enc cmp hcmp => ?_⟩
    refine (C21_name_lookup cmp t it (cs.flatMap enc)).2.1.2 ?_
    intro i d hi
    obtain ⟨c, hc, _⟩ := getSubItem_ok.1 hi
    have := (List.getElem?_eq_some_iff.1 hc).1
    unfold numberOfSubItems at h0
    omega
  | @storage _ kids kids' items ht hn hg hp hl hname hsub =>
    have hkid : ∀ (i : Nat) (c : Item), items[i]? = some c → ∃ (hi : i < kids'.length),
        kids'[i] ∈ kids ∧ c.entry.name = kids'[i].1 ∧ Shows t f c kids'[i].2 ∧
        ∃ ds, NameText ds ∧ kids'[i].1 = storedName e ds ∧
          ∀ (α : Type) (enc : Nat → List α) cmp, ComparesText e enc cmp →
            cmp (cs.flatMap enc) c.entry.name = some (decide (cs = ds)) := by
      intro i c hi
      have hlt : i < kids'.length := by
        rw [← hl]; exact (List.getElem?_eq_some_iff.1 hi).1
      have hk := List.getElem?_eq_getElem hlt
      have hmem : kids'[i] ∈ kids := hp.mem_iff.1 (List.getElem_mem hlt)
      obtain ⟨ds, h1, h2⟩ := hd.text [] kids'[i].1 kids'[i].2 (.sub (path := []) .here hmem)
      refine ⟨hlt, hmem, hname i _ _ hi hk, hsub i _ _ hi hk, ds, h1, h2, ?_⟩
      intro α enc cmp hcmp
      rw [hname i _ _ hi hk, h2]
      exact hcmp cs ds hc h1
    have hnd : (kids'.map (·.1)).Nodup := ((hp.map _).nodup_iff).2 (hd.distinct [] kids .here)
    refine ⟨?_, ?_⟩
    · rintro _ k ⟨⟩ hk
      obtain ⟨i, hi, he⟩ := List.mem_iff_getElem.1 (hp.mem_iff.2 hk)
      have hlt : i < items.length := by omega
      have hci := List.getElem?_eq_getElem hlt
      obtain ⟨_, _, h1, h2, ds, h3, h4, h5⟩ := hkid i _ hci
      rw [he] at h1 h2 h4
      have := storedName_inj hc h3 h4
      subst this
      refine ⟨items[i], h2, h1, ?_⟩
      intro α enc cmp hcmp
      refine ((C21_name_lookup cmp t it (cs.flatMap enc)).1 _).2
        ⟨i, (hg i _).2 hci, by rw [h5 α enc cmp hcmp]; simp, ?_⟩
      intro j hj d hjd
      obtain ⟨hjl, _, g1, _, gs, g3, g4, g5⟩ := hkid j d ((hg j d).1 hjd)
      rw [g5 α enc cmp hcmp]
      refine congrArg some (decide_eq_false ?_)
      rintro rfl
      have : (kids'.map (·.1))[j]'(by rw [List.length_map]; exact hjl) =
          (kids'.map (·.1))[i]'(by rw [List.length_map]; exact hi) := by
        rw [List.getElem_map, List.getElem_map, g4, he]
      exact absurd ((List.Nodup.getElem_inj_iff hnd).1 this) (by omega)
    · intro hno α enc cmp hcmp
      refine (C21_name_lookup cmp t it (cs.flatMap enc)).2.1.2 ?_
      intro j d hjd
      obtain ⟨hjl, gm, g1, _, gs, g3, g4, g5⟩ := hkid j d ((hg j d).1 hjd)
      rw [g5 α enc cmp hcmp]
      refine congrArg some (decide_eq_false ?_)
      rintro rfl
      refine hno kids kids'[j].2 rfl ?_
      rw [← g4]
      exact gm

/-- Lookup of names, one after the other. -/
theorem shown_walk {e : Endian} {t : Tree} {f : FileCtx} :
    ∀ (names : List (List Nat)) (it : Item) (doc : Doc),
    Shows t f it doc → TextNames e doc → (∀ cs ∈ names, NameText cs) →
    (∀ d, DocAt doc (names.map (storedName e)) d →
      ∃ x, Shows t f x d ∧ (∀ cs, names.getLast? = some cs → x.entry.name = storedName e cs) ∧
        ∀ (α : Type) (dec : Decoder α) (enc : Nat → List α) cmp, IsEncoding dec enc →
          ComparesText e enc cmp →
          walk (getSubItemByName cmp t) it (names.map (·.flatMap enc)) = .ok (some x)) ∧
    ((∀ d, ¬ DocAt doc (names.map (storedName e)) d) →
      ∀ (α : Type) (dec : Decoder α) (enc : Nat → List α) cmp, IsEncoding dec enc →
        ComparesText e enc cmp →
        walk (getSubItemByName cmp t) it (names.map (·.flatMap enc)) = .ok none)
  | [], it, doc, hs, hd, _ => by
    refine ⟨fun d h => ?_, fun h => absurd .here (h doc)⟩
    rcases docAt_uncons h with ⟨_, rfl⟩ | ⟨n, rest, _, _, h, _⟩
    · exact ⟨it, hs, fun cs h => (by cases h), fun _ _ _ _ _ _ => rfl⟩
    · cases h
  | cs :: names, it, doc, hs, hd, hn => by
    have hcs := hn cs (by simp)
    have hstep : ∀ {α : Type} {dec : Decoder α} {enc : Nat → List α}
        {cmp : List α → Bytes → Option Bool}, IsEncoding dec enc →
        walk (getSubItemByName cmp t) it ((cs :: names).map (·.flatMap enc)) =
          match getSubItemByName cmp t it (cs.flatMap enc) with
          | .ok (some c) => walk (getSubItemByName cmp t) c (names.map (·.flatMap enc))
          | .ok none => .ok none
          | .err => .err
          | .ub => .ub
          | .hang => .hang := by
      intro α dec enc cmp henc
      have hne : (cs.flatMap enc).length ≠ 0 :=
        fun h => text_ne henc hcs (List.length_eq_zero_iff.1 h)
      exact if_neg hne
    obtain ⟨h1, h2⟩ := shown_name hs hd hcs
    have ih := fun (x : Item) (k : Doc) (hx : Shows t f x k) (hk : TextNames e k) =>
      shown_walk names x k hx hk fun y hy => hn y (by simp [hy])
    rw [List.map_cons]
    constructor
    · intro d h
      rcases docAt_uncons h with ⟨h, _⟩ | ⟨n, rest, kids, k, he, rfl, hm, hr⟩
      · cases h
      · cases he
        obtain ⟨x, hsx, hxn, hx⟩ := h1 kids k rfl hm
        obtain ⟨y, hsy, hyn, hy⟩ := (ih x k hsx (textNames_kid hd hm)).1 d hr
        refine ⟨y, hsy, ?_, ?_⟩
        · intro ds hds
          cases names with
          | nil =>
            cases hds
            have := hx UInt16 encode16 (plainUna.cmp16 e) fun a b ha hb =>
              plainUna_isLibuna.cmp16 e a b ha hb
            have := hy UInt16 _ encode16 (plainUna.cmp16 e) libUtf16_isEncoding fun a b ha hb =>
              plainUna_isLibuna.cmp16 e a b ha hb
            cases this
            exact hxn
          | cons a l => exact hyn ds (by rwa [List.getLast?_cons_cons] at hds)
        · intro α dec enc cmp henc hcmp
          rw [hstep henc, hx α enc cmp hcmp]
          exact hy α dec enc cmp henc hcmp
    · intro hno α dec enc cmp henc hcmp
      rw [hstep henc]
      by_cases hex : ∃ kids k, doc = .storage kids ∧ (storedName e cs, k) ∈ kids
      · obtain ⟨kids, k, rfl, hm⟩ := hex
        obtain ⟨x, hsx, _, hx⟩ := h1 kids k rfl hm
        rw [hx α enc cmp hcmp]
        exact (ih x k hsx (textNames_kid hd hm)).2 (fun d h => hno d (docAt_cons hm h)) α dec enc cmp henc hcmp
      · rw [h2 (fun kids k he hm => hex ⟨kids, k, he, hm⟩) α enc cmp hcmp]

/-- The name of an item. -/
theorem stored_hasName {u : Libuna} (hu : IsLibuna u) {io : IoHandle} {it : Item} {cs : List Nat}
    (hc : NameText cs) (h : it.entry.name = storedName io.byteOrder cs) : HasName u io it cs where
  size8 := by unfold itemUtf8NameSize; rw [h, hu.size8 _ _ hc]; rfl
  size16 := by unfold itemUtf16NameSize; rw [h, hu.size16 _ _ hc]; rfl
  name8 size h1 h2 := by
    unfold itemUtf8Name
    dsimp only
    rw [if_neg (by omega), h, (hu.copy8 _ _ size hc).1 h1 h2]; rfl
  name16 size h1 h2 := by
    unfold itemUtf16Name
    dsimp only
    rw [h, (hu.copy16 _ _ size hc).1 h1 h2]; rfl
  small8 size h1 := by
    unfold itemUtf8Name
    dsimp only
    split
    · rfl
    · rw [h, (hu.copy8 _ _ size hc).2 h1]; rfl
  small16 size h1 := by
    unfold itemUtf16Name
    dsimp only
    rw [h, (hu.copy16 _ _ size hc).2 h1]; rfl

/-! ### C76 -/

/-- The names of the summary information streams are strings of characters. -/
theorem text_comparable {u : Libuna} (hu : IsLibuna u) {e : Endian} {cs : List Nat}
    (hc : NameText cs) : Comparable (u.cmp8 e) (storedName e cs) := by
  constructor
  · intro _
    have h := (hu.cmp8 e (docSummaryName.dropLast.map UInt8.toNat) cs (by decide +kernel) hc).2
    have he : (docSummaryName.dropLast.map UInt8.toNat).flatMap encode8 ++ [0] = docSummaryName := by
      decide +kernel
    rw [he] at h
    rw [h]
    simp
  · intro _
    have h := (hu.cmp8 e (summaryName.dropLast.map UInt8.toNat) cs (by decide +kernel) hc).2
    have he : (summaryName.dropLast.map UInt8.toNat).flatMap encode8 ++ [0] = summaryName := by
      decide +kernel
    rw [he] at h
    rw [h]
    simp

/-- The byte order of an opened file is that of its header. -/
theorem opened_byteOrder {cmp : Bytes → Bytes → Option Bool} {st : FileState} (hr : Reachable cmp st)
    {h : HandleId} {content : Bytes} (hdev : st.world.dev h = Dev.ofBytes content) {e : Endian}
    {hf : HeaderFields} (hfits : hf.Fits) (hpre : encodeHeader e hf <+: content) {flags : Nat}
    {flt : Faults} (hok : (openHandle cmp h flags flt st).1 = .ok ()) :
    (openHandle cmp h flags flt st).2.file.io.byteOrder = e := by
  obtain ⟨l, hdr, t0, list, tree, ho, _, _⟩ := openHandle_loaded (reachable_inv hr).closed hok
  have hh := ho.hheader
  rw [hdev] at hh
  have hlen : (encodeHeader e hf).length = 512 := encodeHeader_length e hf hfits
  have hget : (Dev.ofBytes content).get 0 512 = some (encodeHeader e hf) := by
    obtain ⟨r, rfl⟩ := hpre
    unfold Dev.get Dev.ofBytes
    dsimp only
    rw [List.drop_zero, List.take_append_of_le_length (by omega), List.take_of_length_le (by omega),
      if_pos hlen]
  unfold headerRead at hh
  rw [hget] at hh
  dsimp only at hh
  rw [C02_header_roundtrip e hf hfits] at hh
  have hhdr : hdr = parsedFields e hf := by cases hh; rfl
  rw [ho.hio, hhdr]
  cases (createTree list cmp).shortStart <;> rfl

/-- What a document with Unicode names looks like from its root item: what there is at a path is found
  by the path, in UTF-8 and in UTF-16, and has the name; for any other path nothing is found. -/
structure ShowsText (u : Libuna) (e : Endian) (t : Tree) (f : FileCtx) (root : Item) (doc : Doc) :
    Prop where
  found : ∀ (names : List (List Nat)) (d : Doc), (∀ cs ∈ names, NameText cs ∧ 0x5c ∉ cs) →
    DocAt doc (names.map (storedName e)) d →
    ∃ x, itemByPath u.dec8 (u.cmp8 e) (some t) (some root) (pathText encode8 names) = .ok (some x) ∧
      itemByPath u.dec16 (u.cmp16 e) (some t) (some root) (pathText encode16 names) = .ok (some x) ∧
      Shows t f x d ∧ ∀ cs, names.getLast? = some cs → HasName u f.io x cs
  missing : ∀ (names : List (List Nat)), (∀ cs ∈ names, NameText cs ∧ 0x5c ∉ cs) →
    (∀ d, ¬ DocAt doc (names.map (storedName e)) d) →
    itemByPath u.dec8 (u.cmp8 e) (some t) (some root) (pathText encode8 names) = .ok none ∧
    itemByPath u.dec16 (u.cmp16 e) (some t) (some root) (pathText encode16 names) = .ok none

theorem shows_text {u : Libuna} (hu : IsLibuna u) {e : Endian} {t : Tree} {f : FileCtx} {root : Item}
    {doc : Doc} (hs : Shows t f root doc) (hd : TextNames e doc) (he : f.io.byteOrder = e) :
    ShowsText u e t f root doc := by
  have c8 : ComparesText e encode8 (u.cmp8 e) := fun a b ha hb => (hu.cmp8 e a b ha hb).1
  have c16 : ComparesText e encode16 (u.cmp16 e) := fun a b ha hb => hu.cmp16 e a b ha hb
  refine ⟨?_, ?_⟩
  · intro names d hn hda
    rw [itemByPath_walk hu.dec8 _ t root hn, itemByPath_walk hu.dec16 _ t root hn]
    obtain ⟨x, h1, h2, h3⟩ := (shown_walk names root doc hs hd fun cs h => (hn cs h).1).1 d hda
    refine ⟨x, h3 _ _ _ _ hu.dec8 c8, h3 _ _ _ _ hu.dec16 c16, h1, fun cs h => ?_⟩
    exact stored_hasName hu (hn cs (List.mem_of_getLast? h)).1 (by rw [he]; exact h2 cs h)
  · intro names hn hno
    rw [itemByPath_walk hu.dec8 _ t root hn, itemByPath_walk hu.dec16 _ t root hn]
    have := (shown_walk names root doc hs hd fun cs h => (hn cs h).1).2 hno
    exact ⟨this _ _ _ _ hu.dec8 c8, this _ _ _ _ hu.dec16 c16⟩

/-- C76: in a stored document whose names are Unicode strings, every part is found by its path, in
  UTF-8 and in UTF-16, has the name that was stored, and shows what was stored; paths that lead to no
  part find nothing. -/
theorem C76_unicode_paths {u : Libuna} (hu : IsLibuna u) (w : Writer) (kids : List (Bytes × Doc))
    (hst : Storable w kids) (hn : TextNames w.order (.storage kids))
    (st : FileState) (hr : Reachable (u.cmp8 w.order) st) (hclosed : st.file.handle = none)
    (h : HandleId) (hdev : st.world.dev h = Dev.ofBytes (encodeFile w kids))
    (flags : Nat) (hfl : flags % 4 = 1) :
    (openHandle (u.cmp8 w.order) h flags {} st).1 = .ok () ∧
    ∃ t f root, (openHandle (u.cmp8 w.order) h flags {} st).2.file.tree = some t ∧
      (openHandle (u.cmp8 w.order) h flags {} st).2.file.ctx
        ((openHandle (u.cmp8 w.order) h flags {} st).2.world.dev h) = some f ∧
      rootItem (some t) = some root ∧ ShowsText u w.order t f root (.storage kids) := by
  have hcmp : ∀ n ∈ namesOfKids kids, Comparable (u.cmp8 w.order) n := by
    intro n hm
    obtain ⟨path, d, hd⟩ := namesOfKids_docAt kids n hm
    obtain ⟨cs, h1, rfl⟩ := hn.text path n d hd
    exact text_comparable hu h1
  obtain ⟨h1, t, f, root, h2, h3, h4, h5, _⟩ :=
    C60_written_document_shown w kids hst _ hcmp st hr hclosed h hdev flags hfl
  refine ⟨h1, t, f, root, h2, h3, h4, shows_text hu h5 hn ?_⟩
  have := opened_byteOrder hr hdev (encodeFile_layout hst).fits (encodeFile_layout hst).header h1
  rw [← this]
  unfold OleFile.ctx at h3
  split at h3
  · cases h3; rfl
  · cases h3

/-! ### An example -/

theorem textNames_stream (e : Endian) (data : Bytes) : TextNames e (.stream data) where
  text path n d h := by
    rcases docAt_uncons h with ⟨h, _⟩ | ⟨_, _, _, _, _, h, _⟩
    · simp at h
    · cases h
  distinct path kids h := by
    rcases docAt_uncons h with ⟨_, h⟩ | ⟨_, _, _, _, _, h, _⟩ <;> cases h

theorem textNames_storage {e : Endian} {kids : List (Bytes × Doc)}
    (hk : ∀ k ∈ kids, (∃ cs, NameText cs ∧ k.1 = storedName e cs) ∧ TextNames e k.2)
    (hd : (kids.map (·.1)).Nodup) : TextNames e (.storage kids) where
  text path n d h := by
    rcases docAt_uncons h with ⟨h, _⟩ | ⟨m, rest, _, k, h1, h2, h3, h4⟩
    · simp at h
    · cases h2
      obtain ⟨hm, hr⟩ := hk _ h3
      match path, h1 with
      | [], h1 =>
        rw [List.nil_append] at h1
        cases h1
        exact hm
      | a :: path, h1 =>
        rw [List.cons_append] at h1
        cases h1
        exact hr.text _ _ _ h4
  distinct path ks h := by
    rcases docAt_uncons h with ⟨_, h⟩ | ⟨m, rest, _, k, _, h2, h3, h4⟩
    · cases h; exact hd
    · cases h2
      exact (hk _ h3).2.distinct _ _ h4

/-- A document with the stream `A`, and the storage `Ä` with the streams of the names `日本` and U+1F600,
  which takes two code units. -/
def unicodeDoc (e : Endian) : List (Bytes × Doc) :=
  [(storedName e [0x41], .stream [9]),
   (storedName e [0xc4], .storage [(storedName e [0x65e5, 0x672c], .stream [1, 2, 3]),
     (storedName e [0x1f600], .stream [4, 5])])]

theorem unicodeDoc_storable (e : Endian) : Storable ⟨e, 9, 6, 4096, {}⟩ (unicodeDoc e) := by
  refine (C60_storable e {} noMarks_fits (by simp [unicodeDoc]) ?_ ?_).2 ?_
  · have : ∀ n ∈ namesOfKids (unicodeDoc e), n.length ≤ 64 := by
      simp only [unicodeDoc, namesOfKids, Doc.names, List.append_nil]
      cases e <;> decide +kernel
    exact this
  · simp [unicodeDoc, countKids, Doc.count]
  · simp [unicodeDoc, streamsOfKids, Doc.streams]

theorem unicodeDoc_text (e : Endian) : TextNames e (.storage (unicodeDoc e)) := by
  refine textNames_storage ?_ (by cases e <;> decide +kernel)
  intro k hk
  simp only [unicodeDoc, List.mem_cons, List.not_mem_nil, or_false] at hk
  rcases hk with rfl | rfl
  · exact ⟨⟨_, by decide, rfl⟩, textNames_stream _ _⟩
  · refine ⟨⟨_, by decide, rfl⟩, textNames_storage ?_ (by cases e <;> decide +kernel)⟩
    intro k hk
    simp only [List.mem_cons, List.not_mem_nil, or_false] at hk
    rcases hk with rfl | rfl
    · exact ⟨⟨_, by decide, rfl⟩, textNames_stream _ _⟩
    · exact ⟨⟨_, by decide, rfl⟩, textNames_stream _ _⟩

/-- The bytes of the names and of a path. -/
example : storedName .little [0xc4] = [0xc4, 0, 0, 0] ∧
    storedName .big [0x1f600] = [0xd8, 0x3d, 0xde, 0, 0, 0] ∧
    pathText encode8 [[0xc4], [0x1f600]] = [0x5c, 0xc3, 0x84, 0x5c, 0xf0, 0x9f, 0x98, 0x80] ∧
    pathText encode16 [[0xc4], [0x1f600]] = [0x5c, 0xc4, 0x5c, 0xd83d, 0xde00] := by
  decide +kernel

/-- The stored document, in both byte orders: the stream is found by its path and shows its data, and has its
  name; in the root there is no `B` (C76_unicode_paths). -/
example (e : Endian) : ∃ st, (openHandle (plainUna.cmp8 e) (.user 1) 1 {} st).1 = .ok () ∧
    ∃ t f root, (openHandle (plainUna.cmp8 e) (.user 1) 1 {} st).2.file.tree = some t ∧
      rootItem (some t) = some root ∧
      (∃ x, itemByPath plainUna.dec8 (plainUna.cmp8 e) (some t) (some root)
          [0x5c, 0xc3, 0x84, 0x5c, 0xf0, 0x9f, 0x98, 0x80] = .ok (some x) ∧
        itemByPath plainUna.dec16 (plainUna.cmp16 e) (some t) (some root)
          [0x5c, 0xc4, 0x5c, 0xd83d, 0xde00] = .ok (some x) ∧
        Shows t f x (.stream [4, 5]) ∧ HasName plainUna f.io x [0x1f600]) ∧
      itemByPath plainUna.dec8 (plainUna.cmp8 e) (some t) (some root) [0x5c, 0x42] = .ok none := by
  have hr : Reachable (plainUna.cmp8 e) ⟨OleFile.new, { sampleWorld with
      dev := fun _ => Dev.ofBytes (encodeFile ⟨e, 9, 6, 4096, {}⟩ (unicodeDoc e)) }⟩ :=
    ⟨_, [], ⟨rfl, rfl⟩, rfl⟩
  obtain ⟨h1, t, f, root, h2, h3, h4, h5⟩ := C76_unicode_paths plainUna_isLibuna ⟨e, 9, 6, 4096, {}⟩
    (unicodeDoc e) (unicodeDoc_storable e) (unicodeDoc_text e) _ hr rfl (.user 1) rfl 1 rfl
  refine ⟨_, h1, t, f, root, h2, h4, ?_, ?_⟩
  · obtain ⟨x, g1, g2, g3, g4⟩ := h5.found [[0xc4], [0x1f600]] (.stream [4, 5]) (by decide)
      (.sub (path := [storedName e [0xc4]]) (.sub (path := []) .here
        (by simp only [unicodeDoc, List.mem_cons]; exact Or.inr (Or.inl rfl)))
        (List.mem_cons_of_mem _ List.mem_cons_self))
    exact ⟨x, g1, g2, g3, g4 _ rfl⟩
  · refine (h5.missing [[0x42]] (by decide) ?_).1
    intro d h
    rcases docAt_uncons h with ⟨h, _⟩ | ⟨n, _, _, _, h1, h2, h3, _⟩
    · cases h
    · cases h1
      cases h2
      have : storedName e [0x42] ∈ (unicodeDoc e).map (·.1) := List.mem_map.2 ⟨_, h3, rfl⟩
      revert this
      cases e <;> decide +kernel

end Olecf.Props
