import Verif.Props.Fuse
import Verif.Props.ExportDoc

/-
  C62: a mounted file presents the document in it.
-/

namespace Olecf.Props
open Olecf Olecf.Spec

/-! ### Lookup by path only finds items of the hierarchy -/

theorem pathLoop_item {dec : Decoder α} {cmp : List α → Bytes → Option Bool} {t : Tree} {s : List α} :
    ∀ (fuel i : Nat) (item c : Item) (found : Bool) (p : List Nat), itemAt t p = some item →
    pathLoop dec cmp (some t) s fuel (some item) i found = .ok (some c) →
    ∃ q, itemAt t q = some c := by
  intro fuel
  induction fuel with
  | zero =>
    intro i item c found p hp h
    unfold pathLoop at h
    split at h
    · cases h
    · split at h
      · cases h; exact ⟨p, hp⟩
      · cases h
  | succ fuel ih =>
    intro i item c found p hp h
    unfold pathLoop at h
    split at h
    · simp only [] at h
      split at h
      · rename_i e hit _
        generalize e - (i + if hit = true then 1 else 0) = len at h
        split at h
        · cases h
        · generalize (s.drop i).take _ = name at h
          rcases getSubItemByName_cases cmp t item name with
            ⟨a, b, x, h1, _, _, h2⟩ | ⟨_, h2⟩ | ⟨_, _, _, _, _, _, h2⟩
          · rw [h2] at h
            refine ih _ _ _ _ (p ++ [a.length]) ?_ h
            refine (itemFrom_snoc t p _ a.length _).2 ⟨item, hp, getSubItem_ok.2 ⟨x, ?_, rfl⟩⟩
            rw [h1, List.getElem?_append_right (Nat.le_refl _), Nat.sub_self]
            rfl
          · rw [h2] at h; cases h
          · rw [h2] at h; cases h
      all_goals cases h
    · split at h
      · cases h; exact ⟨p, hp⟩
      · cases h

theorem mountEntryByPath_item {k : Codec} {cmp : Bytes → Bytes → Option Bool} {t : Tree} {p : Bytes}
    {e : MountEntry} (h : mountEntryByPath k cmp (some t) p = .ok (some e)) :
    ∃ q, itemAt t q = some e.item := by
  unfold mountEntryByPath at h
  split at h
  · cases h
  · simp only [] at h
    generalize (if 2 ≤ p.length ∧ p.getD (p.length - 1) 0 = 0x2f then p.length - 1
      else p.length) = len at h
    split at h
    · rename_i item hitem
      split at h
      · cases h
      · cases h
        unfold mountItemByPath at hitem
        split at hitem
        · unfold itemByPath at hitem
          simp only [] at hitem
          split at hitem
          · cases hitem; exact ⟨[], rfl⟩
          · exact pathLoop_item _ _ _ _ _ [] rfl hitem
        all_goals cases hitem
    all_goals cases h

/-! ### Parts of the document and items -/

/-- Every item shows a part of the document. -/
theorem itemAt_docAt {t : Tree} {f : FileCtx} {doc : Doc} (hs : Shows t f ⟨none, t.root⟩ doc) :
    ∀ (n : Nat) (q : List Nat) (it : Item), q.length = n → itemAt t q = some it →
    ∃ path d, DocAt doc path d ∧ Shows t f it d := by
  intro n
  induction n with
  | zero =>
    intro q it hl h
    have : q = [] := List.length_eq_zero_iff.1 hl
    subst this
    cases h
    exact ⟨[], doc, .here, hs⟩
  | succ n ih =>
    intro q it hl h
    rcases List.eq_nil_or_concat q with rfl | ⟨q, i, rfl⟩
    · simp at hl
    · rw [List.concat_eq_append] at h hl
      obtain ⟨m, hm, hi⟩ := (itemFrom_snoc t q _ i it).1 h
      obtain ⟨path, d, h1, h2⟩ := ih q m (by simpa using hl) hm
      cases h2 with
      | stream _ h0 _ _ =>
        obtain ⟨e, he, _⟩ := getSubItem_ok.1 hi
        have := (List.getElem?_eq_some_iff.1 he).1
        exact absurd this (by unfold numberOfSubItems at h0; omega)
      | @storage _ kids kids' items _ _ hg hp hl hname hsub =>
        have hc := (hg i it).1 hi
        have hlt : i < kids'.length := by
          rw [← hl]; exact (List.getElem?_eq_some_iff.1 hc).1
        have hk := List.getElem?_eq_getElem hlt
        exact ⟨path ++ [kids'[i].1], kids'[i].2, .sub h1 (hp.mem_iff.1 (List.getElem_mem hlt)),
          hsub i _ _ hc hk⟩

/-- Reads from a file handle whose item shows a part. -/
theorem shows_readsAs {env : FuseEnv} {h : FuseHandle} {d : Doc} (hc : 0 ≤ h.cur)
    (hs : Shows env.tree env.ctx h.entry.item d) : ReadsAs env h d := by
  intro size offset h1 h2
  rw [(fuseRead_some env h hc size offset).1]
  unfold fuseRead
  rw [if_neg (by omega)]
  simp only []
  unfold mountRead
  cases hs with
  | storage ht =>
    rw [if_pos (by rcases ht with h | h <;> rw [h] <;> decide)]
    rfl
  | @stream _ data ht _ hsz hr =>
    rw [if_neg (by rw [ht]; decide)]
    have : (streamReadAt env.ctx h.entry.item.entry 0 size offset).1.res =
        .ok ((data.drop offset).take size) := by
      unfold streamReadAt
      rw [((C29_seek ht (Int.le_refl 0) offset .set).1 offset rfl (by omega) (by omega)).1]
      exact hr offset size (by omega)
    rw [this]
    rfl

/-! ### C62 -/

/-- The mounted name of a name. -/
def mountedName (k : Codec) (cs : List Nat) : Bytes :=
  match fromItemPath k (utf8 k cs) with
  | .ok m => m
  | _ => []

theorem mountedName_eq {k : Codec} (hk : IsUtf8 k) {cs : List Nat} (hcs : NameChars cs)
    (hlen : (utf8 k cs).length < 2 ^ 59) :
    fromItemPath k (utf8 k cs) = .ok (mountedName k cs) ∧
    (mountedName k cs).length ≤ 10 * (utf8 k cs).length := by
  have h := fromItemPath_ok hk hcs (show (utf8 k cs).length ≤ (ssizeMax - 1) / 10 by
    unfold ssizeMax; omega)
  unfold mountedName
  rw [h]
  exact ⟨rfl, flatMap_escText_length hk hcs.2⟩

theorem dot_name {k : Codec} (hk : IsUtf8 k) :
    fromItemPath k (utf8 k [0x2e]) = .ok [0x2e] ∧ fromItemPath k (utf8 k [0x2e, 0x2e]) = .ok [0x2e, 0x2e] := by
  have h1 : utf8 k [0x2e] = [0x2e] := by rw [utf8_cons, enc_ascii hk (by decide)]; rfl
  have h2 : utf8 k [0x2e, 0x2e] = [0x2e, 0x2e] := by rw [utf8_cons, enc_ascii hk (by decide), h1]; rfl
  have he : escText k 0x2e = [0x2e] := by
    unfold escText
    rw [if_neg (by decide), if_neg (by decide), if_neg (by decide), enc_ascii hk (by decide)]
    rfl
  constructor
  · rw [fromItemPath_ok hk (by decide) (by rw [h1]; decide)]
    simp [he]
  · rw [fromItemPath_ok hk (by decide) (by rw [h2]; decide)]
    simp [he]

section
variable {env : FuseEnv} {chars : Bytes → List Nat} {doc : Doc}

theorem le_sum_of_mem' : ∀ {l : List Nat} {a : Nat}, a ∈ l → a ≤ l.sum
  | b :: l, a, h => by
    rcases List.mem_cons.1 h with rfl | h
    · simp
    · have := le_sum_of_mem' h; simp only [List.sum_cons]; omega

theorem mountable_short (hm : Mountable env chars doc) {path : List Bytes} {d : Doc}
    (hd : DocAt doc path d) : ∀ n ∈ path, (utf8 env.k (chars n)).length < 2 ^ 59 := by
  intro n hn
  have h1 := hm.short path d hd
  have h2 : 10 * (utf8 env.k (chars n)).length + 1 ≤
      (path.map fun n => 10 * (utf8 env.k (chars n)).length + 1).sum :=
    le_sum_of_mem' (List.mem_map.2 ⟨n, hn, rfl⟩)
  omega

theorem docAt_prefix {path : List Bytes} {d : Doc} (h : DocAt doc path d) :
    ∀ n ∈ path, ∃ p x, DocAt doc (p ++ [n]) x := by
  induction h with
  | here => intro n hn; cases hn
  | @sub path kids n d h1 h2 ih =>
    intro m hmem
    rcases List.mem_append.1 hmem with h | h
    · exact ih m h
    · rw [List.mem_singleton.1 h]; exact ⟨path, d, .sub h1 h2⟩

theorem mountPath_length (hk : IsUtf8 env.k) (hm : Mountable env chars doc) {path : List Bytes}
    {d : Doc} (hd : DocAt doc path d) :
    ((path.map fun n => mountedName env.k (chars n)).flatMap (0x2f :: ·)).length < 2 ^ 62 := by
  refine Nat.lt_of_le_of_lt ?_ (hm.short path d hd)
  have key : ∀ l : List Bytes, (∀ n ∈ l, n ∈ path) →
      ((l.map fun n => mountedName env.k (chars n)).flatMap (0x2f :: ·)).length ≤
        (l.map fun n => 10 * (utf8 env.k (chars n)).length + 1).sum := by
    intro l
    induction l with
    | nil => intro _; simp
    | cons n l ih =>
      intro h
      have h1 := ih fun m hmm => h m (by simp [hmm])
      obtain ⟨p, x, hx⟩ := docAt_prefix hd n (h n (by simp))
      have h2 := (mountedName_eq hk (hm.name p n x hx).1 (mountable_short hm hd n (h n (by simp)))).2
      simp only [List.map_cons, List.flatMap_cons, List.length_append, List.length_cons,
        List.sum_cons]
      omega
  exact key path fun _ h => h

/-- The sub entry for a part of a storage. -/
theorem kid_entry (hk : IsUtf8 env.k) (hm : Mountable env chars doc) {path : List Bytes}
    {kids kids' : List (Bytes × Doc)} (hd : DocAt doc path (.storage kids)) {e : MountEntry}
    {items : List Item}
    (hg : ∀ (i : Nat) (c : Item), getSubItem env.tree e.item i = .ok c ↔ items[i]? = some c)
    (hp : kids'.Perm kids) (hl : items.length = kids'.length)
    (hname : ∀ (i : Nat) (c : Item) (x : Bytes × Doc), items[i]? = some c → kids'[i]? = some x →
      c.entry.name = x.1)
    {i : Nat} {c : Item} {x : Bytes × Doc} (hc : items[i]? = some c) (hx : kids'[i]? = some x) :
    mountSubEntry env.k env.utf8Name env.tree e i = .ok ⟨mountedName env.k (chars x.1), c⟩ ∧
    env.utf8Name c.entry = some (utf8 env.k (chars x.1)) ∧
    env.cmp (utf8 env.k (chars x.1)) c.entry.name = some true ∧
    ∀ (j : Nat) d, j ≠ i → getSubItem env.tree e.item j = .ok d →
      env.cmp (utf8 env.k (chars x.1)) d.entry.name = some false := by
  have hmem : x ∈ kids := hp.mem_iff.1 (List.mem_of_getElem? hx)
  have hdx : DocAt doc (path ++ [x.1]) x.2 := .sub hd hmem
  have hcn := hname i c x hc hx
  have hu : env.utf8Name c.entry = some (utf8 env.k (chars x.1)) := by
    have := hm.utf8Name c.entry path x.2 (by rw [hcn]; exact hdx)
    rw [this, hcn]
  have hlen := mountable_short hm hdx x.1 (by simp)
  have hcs := (hm.name path x.1 x.2 hdx).1
  obtain ⟨hfrom, _⟩ := mountedName_eq hk hcs hlen
  refine ⟨?_, hu, ?_, ?_⟩
  · unfold mountSubEntry
    rw [(hg i c).2 hc]
    simp only []
    unfold mountFilename
    rw [hu]
    simp only []
    rw [if_neg (by unfold ssizeMax; omega), hfrom]
    simp only []
    rw [cString_self fun b hb => ((C43_mounted_name_valid_partial hk _ hcs _ hfrom).2.2 b hb).1]
  · rw [hcn, hm.compare path kids hd x hmem x hmem]
    simp
  · intro j d hj hd'
    have hjd := (hg j d).1 hd'
    have hjl : j < kids'.length := by rw [← hl]; exact (List.getElem?_eq_some_iff.1 hjd).1
    have hjx := List.getElem?_eq_getElem hjl
    rw [hname j d _ hjd hjx, hm.compare path kids hd x hmem _ (hp.mem_iff.1 (List.getElem_mem hjl))]
    have hne : x.1 ≠ kids'[j].1 := by
      intro heq
      have hnd : (kids'.map (·.1)).Nodup := (hp.map _).nodup_iff.2 (hm.distinct path kids hd)
      obtain ⟨hi, he⟩ := List.getElem?_eq_some_iff.1 hx
      have h1 : (kids'.map (·.1))[j]'(by simpa using hjl) = (kids'.map (·.1))[i]'(by simpa using hi) := by
        simp only [List.getElem_map]
        rw [he]; exact heq.symm
      exact hj ((List.Nodup.getElem_inj_iff hnd).1 h1)
    simp [hne]

/-- The part at a path is listed at the path of the mounted names. -/
theorem docAt_listed (hk : IsUtf8 env.k) (hm : Mountable env chars doc)
    (hs : Shows env.tree env.ctx ⟨none, env.tree.root⟩ doc) {path : List Bytes} {d : Doc}
    (hd : DocAt doc path d) :
    ∃ e q, ListedAt env.k env.utf8Name env.cmp env.tree
        ((path.map fun n => mountedName env.k (chars n)).flatMap (0x2f :: ·)) (path.map chars) e ∧
      Shows env.tree env.ctx e.item d ∧ itemAt env.tree q = some e.item ∧
      (path = [] → e = ⟨[], ⟨none, env.tree.root⟩⟩) ∧
      NamedFrom env.tree (·.name) ⟨none, env.tree.root⟩ path e.item := by
  induction hd with
  | here => exact ⟨_, [], .root, hs, rfl, fun _ => rfl, .here⟩
  | @sub path kids n d h1 h2 ih =>
    obtain ⟨e, q, i1, i2, i3, _, i4⟩ := ih
    cases i2 with
    | @storage _ _ kids' items ht hn hg hp hl hname hsub =>
      obtain ⟨i, hi, he⟩ := List.mem_iff_getElem.1 (hp.mem_iff.2 h2)
      have hx : kids'[i]? = some (n, d) := by rw [List.getElem?_eq_getElem hi, he]
      have hc := List.getElem?_eq_getElem (show i < items.length by omega)
      obtain ⟨k1, k2, k3, k4⟩ := kid_entry hk hm h1 hg hp hl hname hc hx
      refine ⟨⟨mountedName env.k (chars n), _⟩, q ++ [i], ?_, hsub i _ _ hc hx,
        (itemFrom_snoc _ q _ i _).2 ⟨e.item, i3, (hg i _).2 hc⟩, by simp, ?_⟩
      · have := ListedAt.sub (s := ⟨mountedName env.k (chars n), _⟩) i1 k1 k2 k3 k4
        simpa using this
      · have := NamedFrom.sub i4 ((hg i _).2 hc)
        rwa [hname i _ _ hc hx] at this

theorem listed_lookup (hk : IsUtf8 env.k) (hm : Mountable env chars doc) {path : List Bytes}
    {d : Doc} (hd : DocAt doc path d) {e : MountEntry}
    (h : ListedAt env.k env.utf8Name env.cmp env.tree
      ((path.map fun n => mountedName env.k (chars n)).flatMap (0x2f :: ·)) (path.map chars) e)
    (hne : path ≠ []) :
    mountEntryByPath env.k env.cmp (some env.tree)
      (mountPath (path.map fun n => mountedName env.k (chars n))) = .ok (some e) := by
  cases path with
  | nil => exact absurd rfl hne
  | cons n ns =>
    refine C44_open_by_mounted_path_partial hk _ _ _ _ _ _ h (by simp) ?_ (mountPath_length hk hm hd)
    intro cs hcs
    obtain ⟨m, hm', rfl⟩ := List.mem_map.1 hcs
    obtain ⟨p, x, hx⟩ := docAt_prefix hd m hm'
    exact ⟨(hm.name p m x hx).1, (hm.name p m x hx).2.1⟩

/-- The lookup of the path of a part. -/
theorem docAt_lookup (hk : IsUtf8 env.k) (hm : Mountable env chars doc)
    (hs : Shows env.tree env.ctx ⟨none, env.tree.root⟩ doc) {path : List Bytes} {d : Doc}
    (hd : DocAt doc path d) :
    ∃ e q, mountEntryByPath env.k env.cmp (some env.tree)
        (mountPath (path.map fun n => mountedName env.k (chars n))) = .ok (some e) ∧
      Shows env.tree env.ctx e.item d ∧ itemAt env.tree q = some e.item ∧
      NamedFrom env.tree (·.name) ⟨none, env.tree.root⟩ path e.item := by
  obtain ⟨e, q, h1, h2, h3, h4, h5⟩ := docAt_listed hk hm hs hd
  refine ⟨e, q, ?_, h2, h3, h5⟩
  cases path with
  | nil =>
    rw [h4 rfl]
    exact C44_root hk env.cmp env.tree
  | cons n ns => exact listed_lookup hk hm hd h1 (by simp)

/-- The attributes of an entry, or anything. -/
def statOf (env : FuseEnv) (e : MountEntry) : StatInfo :=
  match entryStat env e with
  | .ok s => s
  | _ => ⟨0, 0, 0, (0, 0), (0, 0), (0, 0)⟩

theorem readdirLoop_ok {e : MountEntry} : ∀ (l : List MountEntry) (index : Nat),
    (∀ (i : Nat) s, l[i]? = some s →
      mountSubEntry env.k env.utf8Name env.tree e ((index + i : Nat) : Int) = .ok s) →
    (∀ s ∈ l, entryStat env s = .ok (statOf env s)) →
    readdirLoop env e l.length index = .ok (l.map fun s => ⟨s.name, statOf env s⟩)
  | [], _, _, _ => rfl
  | s :: l, index, h1, h2 => by
    rw [List.length_cons, readdirLoop]
    have := h1 0 s rfl
    rw [Nat.add_zero] at this
    rw [this]
    simp only [fillDir]
    rw [h2 s (by simp)]
    simp only []
    rw [readdirLoop_ok l (index + 1) (fun i x hx => by
      have := h1 (i + 1) x (by simpa using hx)
      rwa [show index + (i + 1) = index + 1 + i by omega] at this) fun x hx => h2 x (by simp [hx])]
    rfl

theorem getattr_of {p : Bytes} {e : MountEntry}
    (h : mountEntryByPath env.k env.cmp (some env.tree) p = .ok (some e))
    (hs : entryStat env e = .ok (statOf env e)) : fuseGetattr env p = .ok (.ok (statOf env e)) := by
  unfold fuseGetattr
  rw [h]
  simp only []
  rw [hs]

/-- A mount of a hierarchy of items that shows a document. -/
theorem mount_shown (hk : IsUtf8 env.k) (hm : Mountable env chars doc)
    (hs : Shows env.tree env.ctx ⟨none, env.tree.root⟩ doc)
    (hitem : ∀ q it, itemAt env.tree q = some it → it.entry.size < 2 ^ 63 ∧
      ∃ t, mountTime it.entry.modified = .ok t) :
    Presents env (fun n => mountedName env.k (chars n)) doc := by
  have hstat : ∀ q (e : MountEntry), itemAt env.tree q = some e.item →
      entryStat env e = .ok (statOf env e) ∧ (statOf env e).mode = fileMode e ∧
        (statOf env e).size = e.item.entry.size := by
    intro q e h
    obtain ⟨h1, t, h2⟩ := hitem q e.item h
    have := entryStat_ok (env := env) h2 h1
    unfold statOf
    rw [this]
    exact ⟨rfl, rfl, rfl⟩
  have hlook : ∀ {p e}, mountEntryByPath env.k env.cmp (some env.tree) p = .ok (some e) →
      fuseLookup env p = .ok (.ok ⟨e, 0⟩) := by
    intro p e h
    unfold fuseLookup
    rw [h]
  have hnames : ∀ path n d, DocAt doc (path ++ [n]) d →
      fromItemPath env.k (utf8 env.k (chars n)) = .ok (mountedName env.k (chars n)) :=
    fun path n d h => (mountedName_eq hk (hm.name path n d h).1 (mountable_short hm h n (by simp))).1
  refine ⟨?_, ?_, ?_, ?_, ?_, ?_⟩
  · intro path n d h
    obtain ⟨h1, _, h3, h4⟩ := hm.name path n d h
    have hf := hnames path n d h
    obtain ⟨_, v1, v2⟩ := C43_mounted_name_valid_partial hk _ h1 _ hf
    have hlen := mountable_short hm h n (by simp)
    have u1 : utf8 env.k [0x2e] = [0x2e] := by rw [utf8_cons, enc_ascii hk (by decide)]; rfl
    have u2 : utf8 env.k [0x2e, 0x2e] = [0x2e, 0x2e] := by
      rw [utf8_cons, enc_ascii hk (by decide), u1]; rfl
    refine ⟨⟨v1, ?_, ?_, fun hmem => (v2 _ hmem).2 rfl⟩, fun hmem => (v2 _ hmem).1 rfl⟩
    · intro he
      rw [he] at hf
      exact h3 ((C43_mounted_names_distinct_partial hk _ [0x2e] h1 (by decide) hlen _ hf
        (dot_name hk).1).trans u1)
    · intro he
      rw [he] at hf
      exact h4 ((C43_mounted_names_distinct_partial hk _ [0x2e, 0x2e] h1 (by decide) hlen _ hf
        (dot_name hk).2).trans u2)
  · intro path kids h
    have hnd := hm.distinct path kids h
    rw [List.nodup_iff_pairwise_ne, List.pairwise_map] at hnd ⊢
    refine hnd.imp_of_mem ?_
    intro a b ha hb hne heq
    have da := DocAt.sub h (show (a.1, a.2) ∈ kids from ha)
    have db := DocAt.sub h (show (b.1, b.2) ∈ kids from hb)
    have hu := C43_mounted_names_distinct_partial hk _ _ (hm.name _ _ _ da).1 (hm.name _ _ _ db).1
      (mountable_short hm da _ (by simp)) _ (hnames _ _ _ da) (by rw [heq]; exact hnames _ _ _ db)
    have h1 := hm.compare path kids h a ha b hb
    have h2 := hm.compare path kids h b hb b hb
    rw [hu, h2] at h1
    simp at h1
    exact hne h1
  · intro path kids h
    obtain ⟨e, q, h0, h2, h3, h4, -⟩ := docAt_listed hk hm hs h
    have h1 : mountEntryByPath env.k env.cmp (some env.tree)
        (mountPath (path.map fun n => mountedName env.k (chars n))) = .ok (some e) := by
      by_cases hp : path = []
      · subst hp
        rw [h4 rfl]
        exact C44_root hk env.cmp env.tree
      · exact listed_lookup hk hm h h0 hp
    obtain ⟨s1, s2, _⟩ := hstat q e h3
    cases h2 with
    | @storage _ _ kids' items ht hn hg hp hl hname hsub =>
      let l : List MountEntry := List.zipWith (fun x c => ⟨mountedName env.k (chars x.1), c⟩) kids' items
      have hll : l.length = numberOfSubItems env.tree e.item := by
        simp only [l, List.length_zipWith]; omega
      have hli : ∀ (i : Nat) s, l[i]? = some s → ∃ x c, kids'[i]? = some x ∧ items[i]? = some c ∧
          s = ⟨mountedName env.k (chars x.1), c⟩ := by
        intro i s h
        simp only [l, List.getElem?_zipWith] at h
        cases hx : kids'[i]? with
        | none => rw [hx] at h; simp at h
        | some x =>
          cases hc : items[i]? with
          | none => rw [hx, hc] at h; simp at h
          | some c =>
            rw [hx, hc] at h
            exact ⟨x, c, rfl, rfl, (Option.some.inj h).symm⟩
      have hls : ∀ s ∈ l, entryStat env s = .ok (statOf env s) := by
        intro s hmem
        obtain ⟨i, hi⟩ := List.mem_iff_getElem?.1 hmem
        obtain ⟨x, c, _, hc, rfl⟩ := hli i s hi
        exact (hstat (q ++ [i]) _ ((itemFrom_snoc _ q _ i _).2 ⟨e.item, h3, (hg i _).2 hc⟩)).1
      have hloop := readdirLoop_ok (env := env) (e := e) l 0 (by
        intro i s h'
        obtain ⟨x, c, hx, hc, rfl⟩ := hli i s h'
        rw [Nat.zero_add]
        exact (kid_entry hk hm h hg hp hl hname hc hx).1) hls
      refine ⟨statOf env e, ⟨e, 0⟩, ⟨0, 0, 1, timeSpec env.nsec 0, timeSpec env.nsec 0,
        timeSpec env.nsec 0⟩, l.map fun s => ⟨s.name, statOf env s⟩, getattr_of h1 s1, ?_, ?_, ?_, ?_, ?_⟩
      · rw [s2]
        unfold fileMode mountIsDirectory
        simp only [ht, decide_true, if_true]
        decide
      · unfold fuseOpendir
        rw [if_neg (by simp)]
        exact hlook h1
      · unfold fuseReaddir
        simp only [fillDir]
        rw [s1]
        simp only []
        have h0 : setStatInfo env.nsec 0 0 0 0 0 = .ok ⟨0, 0, 1, timeSpec env.nsec 0,
            timeSpec env.nsec 0, timeSpec env.nsec 0⟩ := by
          unfold setStatInfo
          rw [if_neg (by decide)]
          rfl
        rw [h0]
        simp only []
        rw [← hll, hloop]
      · have : (l.map fun s => (⟨s.name, statOf env s⟩ : DirItem)).map (·.name) =
            kids'.map fun x => mountedName env.k (chars x.1) := by
          rw [List.map_map]
          apply List.ext_getElem?
          intro i
          simp only [l, List.getElem?_map, List.getElem?_zipWith]
          cases hx : kids'[i]? with
          | none => simp
          | some x =>
            have hi : i < items.length := by
              rw [hl]; exact (List.getElem?_eq_some_iff.1 hx).1
            rw [List.getElem?_eq_getElem hi]
            rfl
        rw [this]
        exact hp.map _
      · intro y hy
        obtain ⟨s, hsl, rfl⟩ := List.mem_map.1 hy
        obtain ⟨i, hi⟩ := List.mem_iff_getElem?.1 hsl
        obtain ⟨x, c, hx, hc, rfl⟩ := hli i s hi
        have hdx : DocAt doc (path ++ [x.1]) x.2 := .sub h (hp.mem_iff.1 (List.mem_of_getElem? hx))
        obtain ⟨k1, k2, k3, k4⟩ := kid_entry hk hm h hg hp hl hname hc hx
        have hlist := ListedAt.sub (s := ⟨mountedName env.k (chars x.1), c⟩) h0 k1 k2 k3 k4
        have := listed_lookup hk hm hdx (e := ⟨mountedName env.k (chars x.1), c⟩)
          (by simpa using hlist) (by simp)
        rw [List.map_append] at this
        exact getattr_of this (hls _ hsl)
  · intro path data h
    obtain ⟨e, q, h1, h2, h3, -⟩ := docAt_lookup hk hm hs h
    obtain ⟨s1, s2, s3⟩ := hstat q e h3
    refine ⟨statOf env e, getattr_of h1 s1, ?_, ?_, ?_⟩
    · rw [s2]
      cases h2 with
      | stream ht =>
        unfold fileMode mountIsDirectory
        rw [ht]
        decide
    · rw [s3]
      cases h2 with
      | stream _ _ hsz => exact hsz
    · intro flags hf
      refine ⟨⟨e, 0⟩, ?_, shows_readsAs (Int.le_refl 0) h2⟩
      unfold fuseOpen
      rw [if_neg (by simp), if_neg (by omega)]
      exact hlook h1
  · intro p flags h ho
    obtain ⟨hc, he⟩ := fuseLookup_cur (fuseOpen_ok ho).2
    obtain ⟨q, hq⟩ := mountEntryByPath_item he
    obtain ⟨path, d, h1, h2⟩ := itemAt_docAt hs _ q _ rfl hq
    exact ⟨path, d, h1, shows_readsAs (by rw [hc]; exact Int.le_refl 0) h2⟩
  · intro p flags h hf ho
    exact hf (fuseOpen_ok ho).1

end

/-! ### C62 -/

/-- C62: the document that a file holds is presented by the mounted file system.  Any file object that
  is not open, whatever was done with it before, opens the file; with the items of the file mounted, the
  storages are directories with their parts in them, the streams are files with their data, under the
  mounted names of the parts, and there is nothing else. -/
theorem C62_mounted_document {content : Bytes} {hd : HeaderFields} {slots : List SlotFields} {doc : Doc}
    (hf : HeldBy content hd slots doc) (cmp : Bytes → Bytes → Option Bool)
    (hcmp : ∀ n ∈ (entriesOfSlots slots).map (·.name), Comparable cmp n)
    (htime : ∀ d ∈ entriesOfSlots slots, TimeFits d.modified)
    (st : FileState) (hst : Reachable cmp st) (hclosed : st.file.handle = none)
    (h : HandleId) (hdev : st.world.dev h = Dev.ofBytes content)
    (flags : Nat) (hfl : flags % 4 = 1) :
    (openHandle cmp h flags {} st).1 = .ok () ∧
    ∃ t f, (openHandle cmp h flags {} st).2.file.tree = some t ∧
      (openHandle cmp h flags {} st).2.file.ctx
        ((openHandle cmp h flags {} st).2.world.dev h) = some f ∧
      ∀ (env : FuseEnv) (chars : Bytes → List Nat), env.tree = t → env.ctx = f → IsUtf8 env.k →
        Mountable env chars doc →
        ∃ mname, (∀ path n d, DocAt doc (path ++ [n]) d →
            fromItemPath env.k (utf8 env.k (chars n)) = .ok (mname n)) ∧
          Presents env mname doc := by
  have hok := (C47_document_shown ⟨hd, slots, hf, rfl⟩ cmp hcmp st hst hclosed h hdev flags hfl).1
  refine ⟨hok, ?_⟩
  obtain ⟨l, hdr, t0, list, tree, ho, hfile, hworld⟩ := openHandle_loaded (reachable_inv hst).closed hok
  obtain ⟨h1, h2⟩ := openCore_ok_iff.2 ⟨_, _, _, _, ho⟩
  obtain ⟨l', t, m, hl', ht, htree, hfits, hwf, hsec, hse, hroot, hs⟩ := heldBy_loaded hf cmp hcmp st.file.io
  rw [hdev] at h1 h2
  rw [h1] at hl'
  cases hl'
  rw [h2] at hs hwf hsec hse
  have hwd : (openHandle cmp h flags {} st).2.world.dev h = Dev.ofBytes content := by
    rw [hworld, (ensureOpen_isOpen _ _).2.2.1, hdev]
  have hmem := (C16_no_item_twice _ cmp (entriesOfSlots_nodup slots) _ m htree).1
  refine ⟨t, _, by rw [hfile]; exact ht, by rw [hwd, hfile]; rfl, ?_⟩
  intro env chars e1 e2 hk hm
  subst e1
  refine ⟨fun n => mountedName env.k (chars n), ?_, mount_shown hk hm (by rw [e2]; exact hs) ?_⟩
  · intro path n d h
    exact (mountedName_eq hk (hm.name path n d h).1 (mountable_short hm h n (by simp))).1
  · intro q it hq
    have hin := hmem q it hq
    refine ⟨Nat.lt_trans (hfits _ hin).size (by decide), ?_⟩
    rcases htime _ hin with h0 | ⟨hlo, hhi⟩
    · exact ⟨0, by rw [h0]; rfl⟩
    · by_cases h0 : it.entry.modified = 0
      · exact ⟨0, by rw [h0]; rfl⟩
      · refine ⟨_, C54_mounted_time_partial _ ?_ h0 hlo hhi⟩
        unfold filetimeNanoseconds at hhi
        omega

/-- C62, written and mounted: a document within the limits of the format that was stored as the format
  describes, with modification times that 64 bits of nanoseconds can hold, is what the mounted file
  system presents. -/
theorem C62_written_document_mounted (wr : Writer) (kids : List (Bytes × Doc)) (hst : Storable wr kids)
    (htime : ∀ i ≤ countKids kids, TimeFits (wr.marks.entry i).modified)
    (cmp : Bytes → Bytes → Option Bool) (hcmp : ∀ n ∈ namesOfKids kids, Comparable cmp n)
    (st : FileState) (hr : Reachable cmp st) (hclosed : st.file.handle = none)
    (h : HandleId) (hdev : st.world.dev h = Dev.ofBytes (encodeFile wr kids))
    (flags : Nat) (hfl : flags % 4 = 1) :
    (openHandle cmp h flags {} st).1 = .ok () ∧
    ∃ t f, (openHandle cmp h flags {} st).2.file.tree = some t ∧
      (openHandle cmp h flags {} st).2.file.ctx
        ((openHandle cmp h flags {} st).2.world.dev h) = some f ∧
      ∀ (env : FuseEnv) (chars : Bytes → List Nat), env.tree = t → env.ctx = f → IsUtf8 env.k →
        Mountable env chars (.storage kids) →
        ∃ mname, (∀ path n d, DocAt (.storage kids) (path ++ [n]) d →
            fromItemPath env.k (utf8 env.k (chars n)) = .ok (mname n)) ∧
          Presents env mname (.storage kids) := by
  refine C62_mounted_document (encodeFile_held hst) cmp (by
    rw [slotsOfFile_names hst]
    intro n hn
    rcases List.mem_cons.1 hn with rfl | hn
    · exact rootName_comparable _ _
    · exact hcmp n hn) ?_ st hr hclosed h hdev flags hfl
  intro d hd
  obtain ⟨i, s, hs, hused, rfl⟩ := entriesOfSlots_mem.1 hd
  obtain ⟨hi, -, hm⟩ := slotsOfFile_marks hs hused
  show TimeFits s.modified
  rw [hm]
  exact htime i hi

/-! ### An example -/

/-- The environment of a mount of the file in `smallState`. -/
def smallMount (t : Tree) (f : FileCtx) : FuseEnv where
  k := libUtf8
  cmp a b := some (decide (a = fileNameOf b))
  utf8Name d := some (fileNameOf d.name)
  tree := t
  ctx := f
  mounted := 0
  nsec := true

def charsOf (n : Bytes) : List Nat := (fileNameOf n).map UInt8.toNat

theorem docAt_depth {doc : Doc} {path : List Bytes} {x : Doc} (h : DocAt doc path x) :
    path.length ≤ doc.names.length ∧ path.length + x.names.length ≤ doc.names.length := by
  have key : ∀ {n : Bytes} {d : Doc} {kids : List (Bytes × Doc)}, (n, d) ∈ kids →
      1 + d.names.length ≤ (namesOfKids kids).length := by
    intro n d kids h
    induction kids with
    | nil => cases h
    | cons k r ih =>
      obtain ⟨n', d'⟩ := k
      rw [namesOfKids, List.length_cons, List.length_append]
      rcases List.mem_cons.1 h with h | h
      · cases h; omega
      · have := ih h; omega
  have : path.length + x.names.length ≤ doc.names.length := by
    induction h with
    | here => simp
    | @sub path kids n d _ hm ih =>
      have := key hm
      rw [Doc.names] at ih
      rw [List.length_append, List.length_singleton]
      omega
  exact ⟨by omega, this⟩

theorem smallDoc_at : DocAt (.storage smallDoc) [[66, 0], [67, 0]] (.stream [1, 2, 3]) := by
  have h1 : DocAt (.storage smallDoc) ([] ++ [[66, 0]])
      (.storage [([67, 0], .stream [1, 2, 3]), ([68, 0], .stream [])]) :=
    .sub .here (by simp [smallDoc])
  have h2 : DocAt (.storage smallDoc) ([[66, 0]] ++ [[67, 0]]) (.stream [1, 2, 3]) := .sub h1 (by simp)
  exact h2

theorem smallDoc_mountable (t : Tree) (f : FileCtx) :
    Mountable (smallMount t f) charsOf (.storage smallDoc) := by
  have hnames : namesOfKids smallDoc = [[65, 0], [66, 0], [67, 0], [68, 0], [69, 0]] := by
    simp [smallDoc, namesOfKids, Doc.names]
  have hall : ∀ path x, DocAt (.storage smallDoc) path x → ∀ n ∈ path,
      n ∈ [[65, 0], [66, 0], [67, 0], [68, 0], [69, 0]] := by
    intro path x h n hn
    rw [← hnames]
    exact (docAt_names h).1 n hn
  have hutf : ∀ n ∈ [[65, 0], [66, 0], [67, 0], [68, 0], [69, 0]],
      NameChars (charsOf n) ∧ 0x5c ∉ charsOf n ∧ utf8 libUtf8 (charsOf n) ≠ [0x2e] ∧
        utf8 libUtf8 (charsOf n) ≠ [0x2e, 0x2e] ∧ fileNameOf n = utf8 libUtf8 (charsOf n) := by
    decide +kernel
  refine ⟨?_, ?_, ?_, ?_, ?_⟩
  · intro path n d h
    have := hutf n (hall _ _ h n (by simp))
    exact ⟨this.1, this.2.1, this.2.2.1, this.2.2.2.1⟩
  · intro e path d h
    exact congrArg some (hutf _ (hall _ _ h _ (by simp))).2.2.2.2
  · intro path kids h a ha b hb
    have h1 := hall _ _ (DocAt.sub h (show (a.1, a.2) ∈ kids from ha)) a.1 (by simp)
    have h2 := hall _ _ (DocAt.sub h (show (b.1, b.2) ∈ kids from hb)) b.1 (by simp)
    have : ∀ n ∈ [[65, 0], [66, 0], [67, 0], [68, 0], [69, 0]],
        ∀ m ∈ [[65, 0], [66, 0], [67, 0], [68, 0], [69, 0]],
        (some (decide (utf8 libUtf8 (charsOf n) = fileNameOf m)) : Option Bool) =
          some (decide (n = m)) := by decide +kernel
    exact this _ h1 _ h2
  · intro path kids h
    have := smallDoc_names.distinct path kids h
    have h2 : ((kids.map (·.1)).map fileNameOf).Nodup := by rw [List.map_map]; exact this
    exact List.Nodup.of_map _ h2
  · intro path d h
    have h1 := (docAt_depth h).1
    rw [Doc.names, hnames] at h1
    have h2 : ∀ n ∈ [[65, 0], [66, 0], [67, 0], [68, 0], [69, 0]],
      (utf8 libUtf8 (charsOf n)).length = 1 := by decide +kernel
    have h3 : (path.map fun n => 10 * (utf8 (smallMount t f).k (charsOf n)).length + 1) =
        path.map fun _ => 11 := by
      apply List.map_congr_left
      intro n hn
      have := h2 n (hall _ _ h n hn)
      show 10 * (utf8 libUtf8 (charsOf n)).length + 1 = 11
      rw [this]
    rw [h3, List.map_const', List.sum_replicate_nat]
    simp only [List.length_cons, List.length_nil] at h1
    omega

/-- The small document is mounted (C62_written_document_mounted), in both byte orders. -/
example (e : Endian) : ∃ t f mname,
    (openHandle cmpNone (.user 1) 1 {} (smallState e)).2.file.tree = some t ∧
    Presents (smallMount t f) mname (.storage smallDoc) ∧ mname [67, 0] = [67] := by
  obtain ⟨_, t, f, h1, h2, h3⟩ := C62_written_document_mounted _ smallDoc (smallDoc_storable e)
    (fun _ _ => Or.inl rfl)
    cmpNone (by
    intro n _
    exact ⟨fun _ => by simp [cmpNone], fun _ => by simp [cmpNone]⟩) (smallState e)
    ⟨smallState e, [], ⟨rfl, rfl⟩, rfl⟩ rfl (.user 1) rfl 1 rfl
  obtain ⟨mname, hn, hp⟩ := h3 (smallMount t f) charsOf rfl rfl libUtf8_isUtf8 (smallDoc_mountable t f)
  refine ⟨t, f, mname, h1, hp, ?_⟩
  have := hn [[66, 0]] [67, 0] (.stream [1, 2, 3]) smallDoc_at
  have h4 : fromItemPath libUtf8 (utf8 libUtf8 (charsOf [67, 0])) = .ok [67] := by decide +kernel
  exact (Res.ok.inj (h4.symm.trans this)).symm

/-- What is in the mount: the three bytes of the stream `C` of the storage `B`. -/
example (env : FuseEnv) (mname : Bytes → Bytes) (h : Presents env mname (.storage smallDoc)) :
    ∃ fh, fuseOpen env (mountPath [mname [66, 0], mname [67, 0]]) 0 none = .ok (.ok fh) ∧
      (fuseRead env 2 1 (some fh)).1 = .ok (.ok [2, 3]) := by
  obtain ⟨s, _, _, _, h4⟩ := h.streams _ _ smallDoc_at
  obtain ⟨fh, h5, h6⟩ := h4 0 rfl
  exact ⟨fh, h5, h6 2 1 (by decide) (by decide)⟩

end Olecf.Props
