import Verif.Spec.Dokan
import Verif.Props.MountWide
import Verif.Props.MountProgram
import Verif.Props.Marks

/-
  C104: a file mounted as a drive of Windows presents the document in it.
-/

namespace Olecf.Props
open Olecf Olecf.Spec

/-! ### Lookup, attributes and reads -/

theorem mountEntryByPathW_item {k : WideCodec} {cmp : Wide → Bytes → Option Bool} {t : Tree} {p : Wide}
    {e : WideEntry} (h : mountEntryByPathW k cmp (some t) p = .ok (some e)) :
    ∃ q, itemAt t q = some e.item := by
  unfold mountEntryByPathW at h
  split at h
  · cases h
  · simp only [] at h
    generalize (if 2 ≤ p.length ∧ p.getD (p.length - 1) 0 = 0x5c then p.length - 1
      else p.length) = len at h
    split at h
    · rename_i item hitem
      split at h
      · cases h
      · cases h
        unfold mountItemByPathW at hitem
        split at hitem
        · unfold itemByPath at hitem
          simp only [] at hitem
          split at hitem
          · cases hitem; exact ⟨[], rfl⟩
          · exact pathLoop_item _ _ _ _ _ [] rfl hitem
        all_goals cases hitem
    all_goals cases h

theorem timeValue_fileTime {t : Nat} (h : t < 2 ^ 64) : timeValue (fileTime t) = t := by
  unfold timeValue fileTime
  dsimp only
  omega

/-- The attributes of a file entry. -/
theorem entryInfo_fields (env : DokanEnv) (info : DokanInfo) (e : WideEntry) (h : e.item.entry.size < 2 ^ 64) :
    ((entryInfo env info e).directory = true ↔ e.item.entry.type = 1 ∨ e.item.entry.type = 5) ∧
    fileSize (entryInfo env info e) = (if e.item.entry.size = 0 then fileSize info else e.item.entry.size) ∧
    (entryInfo env info e).created = fileTime e.item.entry.created ∧
    (entryInfo env info e).written = fileTime e.item.entry.modified ∧
    (entryInfo env info e).accessed = fileTime env.mounted := by
  refine ⟨?_, ?_, ?_, ?_, ?_⟩
  · unfold entryInfo setInfo fileModeW
    dsimp only
    by_cases ht : e.item.entry.type = 1 ∨ e.item.entry.type = 5
    · rw [if_pos ht]; simp [ht]
    · rw [if_neg ht]; simp [ht]
  · unfold entryInfo setInfo fileSize
    dsimp only
    by_cases h0 : e.item.entry.size = 0
    · rw [if_pos h0, if_neg (by omega)]
    · rw [if_neg h0, if_pos (by omega)]
      dsimp only
      omega
  all_goals unfold entryInfo setInfo; rfl

theorem mountReadW_res (f : FileCtx) (e : WideEntry) {a b : Int} (ha : 0 ≤ a) (hb : 0 ≤ b)
    (size : Nat) (offset : Int) :
    (mountReadW f e a size offset).1 = (mountReadW f e b size offset).1 := by
  unfold mountReadW
  split
  · rfl
  · exact streamReadAt_res f _ ha hb size offset

theorem mountReadW_nonneg (f : FileCtx) (e : WideEntry) {a : Int} (ha : 0 ≤ a) (size : Nat)
    (offset : Int) : 0 ≤ (mountReadW f e a size offset).2 := by
  unfold mountReadW
  split
  · exact ha
  · exact readAt_nonneg f e.item.entry ha size offset

/-- A read does not depend on the current offset, and leaves the file entry. -/
theorem dokanRead_some (env : DokanEnv) (h : DokanHandle) (hc : 0 ≤ h.cur) (size : Nat) (offset : Int) :
    (dokanRead env size offset (some h)).1 = (dokanRead env size offset (some ⟨h.entry, 0⟩)).1 ∧
    ∃ c, 0 ≤ c ∧ (dokanRead env size offset (some h)).2 = some ⟨h.entry, c⟩ := by
  unfold dokanRead
  split
  · exact ⟨rfl, h.cur, hc, rfl⟩
  · have h1 := mountReadW_res env.ctx h.entry hc (Int.le_refl 0) size offset
    have h2 := mountReadW_nonneg env.ctx h.entry hc size offset
    simp only [← h1]
    refine ⟨?_, _, h2, ?_⟩
    · split
      · split <;> rfl
      all_goals rfl
    · split
      · split <;> rfl
      all_goals rfl

/-- Reads from a context whose item shows a part. -/
theorem shows_driveReads {env : DokanEnv} {h : DokanHandle} {d : Doc} (hc : 0 ≤ h.cur)
    (hs : Shows env.tree env.ctx h.entry.item d) : DriveReads env h d := by
  intro size offset h1 h2
  rw [(dokanRead_some env h hc size offset).1]
  unfold dokanRead
  rw [if_neg (by omega)]
  simp only []
  unfold mountReadW
  cases hs with
  | storage ht =>
    rw [if_pos (by rcases ht with h | h <;> rw [h] <;> decide)]
  | @stream _ data ht _ hsz hr =>
    rw [if_neg (by rw [ht]; decide)]
    have : (streamReadAt env.ctx h.entry.item.entry 0 size offset).1.res =
        .ok ((data.drop offset).take size) := by
      unfold streamReadAt
      rw [((C29_seek ht (Int.le_refl 0) offset .set).1 offset rfl (by omega) (by omega)).1]
      exact hr offset size (by omega)
    rw [this]
    dsimp only
    rw [if_neg (by rw [List.length_take]; omega)]

theorem dokanLookup_of {env : DokanEnv} {p : Wide} {e : WideEntry}
    (h : mountEntryByPathW env.k env.cmp (some env.tree) p = .ok (some e)) :
    dokanLookup env p none = .ok (.ok ⟨e, 0⟩) := by
  unfold dokanLookup
  rw [if_neg (by simp), h]

theorem dokanLookup_cur {env : DokanEnv} {p : Wide} {h : DokanHandle}
    (hl : dokanLookup env p none = .ok (.ok h)) : h = ⟨h.entry, 0⟩ ∧
      mountEntryByPathW env.k env.cmp (some env.tree) p = .ok (some h.entry) := by
  unfold dokanLookup at hl
  rw [if_neg (by simp)] at hl
  split at hl
  · rename_i e he
    cases hl
    exact ⟨rfl, he⟩
  all_goals cases hl

/-- A file is only opened without write access, with a disposition to open. -/
theorem createFile_ok {env : DokanEnv} {p : Wide} {access disposition : Nat} {h : DokanHandle}
    (hl : createFile env p access disposition none = .ok (.ok h)) :
    access / 2 ^ 30 % 2 = 0 ∧ disposition = 3 ∧ dokanLookup env p none = .ok (.ok h) := by
  unfold createFile at hl
  split at hl
  · cases hl
  · split at hl
    · cases hl
    · split at hl
      · cases hl
      · split at hl
        · cases hl
        · split at hl
          · cases hl
          · split at hl
            · cases hl
            · exact ⟨by omega, by omega, hl⟩

theorem zwCreateFile_ok {env : DokanEnv} {p : Wide} {access disposition : Nat} {h : DokanHandle}
    (hl : zwCreateFile env p access disposition none = .ok (.ok h)) :
    access / 2 ^ 30 % 2 = 0 ∧ (disposition = 1 ∨ disposition = 3) ∧
      dokanLookup env p none = .ok (.ok h) := by
  unfold zwCreateFile at hl
  split at hl
  · cases hl
  · split at hl
    · cases hl
    · split at hl
      · cases hl
      · exact ⟨by omega, by omega, hl⟩

theorem opensFile_eq {env : DokanEnv} {p : Wide} {r : DokanRes DokanHandle} (h : OpensFile env p r) :
    r = dokanLookup env p none := by
  cases h with
  | old ha =>
    unfold createFile
    rw [if_neg (by omega), if_neg (by decide), if_neg (by decide), if_neg (by decide), if_neg (by decide),
      if_neg (by decide)]
  | new ha hd =>
    unfold zwCreateFile
    rw [if_neg (by omega), if_neg (by omega), if_neg (by omega)]
  | directory => rfl

theorem asksFile_ok {env : DokanEnv} {p : Wide} {r : DokanRes DokanHandle} (h : AsksFile env p r)
    {x : DokanHandle} (hr : r = .ok (.ok x)) : dokanLookup env p none = .ok (.ok x) := by
  cases h with
  | old => exact (createFile_ok hr).2.2
  | new => exact (zwCreateFile_ok hr).2.2
  | directory => exact hr

/-! ### Parts of the document and items -/

section
variable {env : DokanEnv} {chars : Bytes → List Nat} {doc : Doc}

theorem fileNameW_length {cs : List Nat} (hcs : NameChars cs) :
    (fileNameW cs).length ≤ 10 * (wide cs).length := by
  rw [← flatMap_fileNameW fun c hc => (hcs.2 c hc).1]
  exact flatMap_escTextW_length cs

theorem drivePath_length (hm : DriveMountable env chars doc) {path : List Bytes} {d : Doc}
    (hd : DocAt doc path d) :
    ((path.map fun n => fileNameW (chars n)).flatMap (0x5c :: ·)).length < 2 ^ 61 := by
  have key : ∀ l : List Bytes, (∀ n ∈ l, n ∈ path) →
      ((l.map fun n => fileNameW (chars n)).flatMap (0x5c :: ·)).length ≤ 311 * l.length := by
    intro l
    induction l with
    | nil => intro _; simp
    | cons n l ih =>
      intro h
      have h1 := ih fun m hmm => h m (by simp [hmm])
      obtain ⟨p, x, hx⟩ := docAt_prefix hd n (h n (by simp))
      obtain ⟨n1, -, -, n2⟩ := hm.name p n x hx
      have h2 := fileNameW_length n1
      simp only [List.map_cons, List.flatMap_cons, List.length_append, List.length_cons]
      omega
  have h1 := key path fun _ h => h
  have h2 := hm.depth path d hd
  omega

/-- The sub entry for a part of a storage. -/
theorem kid_entryW (hk : IsUtf16 env.k) (hm : DriveMountable env chars doc) {path : List Bytes}
    {kids kids' : List (Bytes × Doc)} (hd : DocAt doc path (.storage kids)) {e : WideEntry}
    {items : List Item}
    (hg : ∀ (i : Nat) (c : Item), getSubItem env.tree e.item i = .ok c ↔ items[i]? = some c)
    (hp : kids'.Perm kids) (hl : items.length = kids'.length)
    (hname : ∀ (i : Nat) (c : Item) (x : Bytes × Doc), items[i]? = some c → kids'[i]? = some x →
      c.entry.name = x.1)
    {i : Nat} {c : Item} {x : Bytes × Doc} (hc : items[i]? = some c) (hx : kids'[i]? = some x) :
    mountSubEntryW env.k env.name16 env.tree e i =
      .ok ⟨fileNameW (chars x.1), (wide (chars x.1)).length * 10 + 1, c⟩ ∧
    env.name16 c.entry = some (wide (chars x.1)) ∧
    env.cmp (wide (chars x.1)) c.entry.name = some true ∧
    ∀ (j : Nat) d, j ≠ i → getSubItem env.tree e.item j = .ok d →
      env.cmp (wide (chars x.1)) d.entry.name = some false := by
  have hmem : x ∈ kids := hp.mem_iff.1 (List.mem_of_getElem? hx)
  have hdx : DocAt doc (path ++ [x.1]) x.2 := .sub hd hmem
  have hcn := hname i c x hc hx
  have hu : env.name16 c.entry = some (wide (chars x.1)) := by
    have := hm.name16 c.entry path x.2 (by rw [hcn]; exact hdx)
    rw [this, hcn]
  obtain ⟨hcs, -, -, hlen⟩ := hm.name path x.1 x.2 hdx
  refine ⟨?_, hu, ?_, ?_⟩
  · unfold mountSubEntryW
    rw [(hg i c).2 hc]
    simp only []
    unfold mountFilenameW
    rw [hu]
    simp only []
    rw [(C103_file_name_partial hk _ hcs (by omega)).1]
    simp only []
    rw [wString_self]
    · rfl
    · rw [← flatMap_fileNameW fun c hc => (hcs.2 c hc).1]
      exact fun b hb => (fileNameW_units hcs.2 b hb).1
  · rw [hcn, hm.compare path kids hd x hmem x hmem]
    simp
  · intro j d hj hd'
    have hjd := (hg j d).1 hd'
    have hjl : j < kids'.length := by rw [← hl]; exact (List.getElem?_eq_some_iff.1 hjd).1
    have hjx := List.getElem?_eq_getElem hjl
    rw [hname j d _ hjd hjx, hm.compare path kids hd x hmem _ (hp.mem_iff.1 (List.getElem_mem hjl))]
    have hne : x.1 ≠ kids'[j].1 := by
      intro heq
      have hnd : (kids'.map (·.1)).Nodup := (hp.map _).nodup_iff.2 (hm.distinct path kids hd)
      obtain ⟨hi, he⟩ := List.getElem?_eq_some_iff.1 hx
      have h1 : (kids'.map (·.1))[j]'(by simpa using hjl) = (kids'.map (·.1))[i]'(by simpa using hi) := by
        simp only [List.getElem_map]
        rw [he]; exact heq.symm
      exact hj ((List.Nodup.getElem_inj_iff hnd).1 h1)
    simp [hne]

/-- The part at a path is listed at the path of the file names. -/
theorem docAt_listedW (hk : IsUtf16 env.k) (hm : DriveMountable env chars doc)
    (hs : Shows env.tree env.ctx ⟨none, env.tree.root⟩ doc) {path : List Bytes} {d : Doc}
    (hd : DocAt doc path d) :
    ∃ e q, ListedAtW env.k env.name16 env.cmp env.tree
        ((path.map fun n => fileNameW (chars n)).flatMap (0x5c :: ·)) (path.map chars) e ∧
      Shows env.tree env.ctx e.item d ∧ itemAt env.tree q = some e.item ∧
      (path = [] → e = ⟨[], 1, ⟨none, env.tree.root⟩⟩) ∧
      NamedFrom env.tree (·.name) ⟨none, env.tree.root⟩ path e.item := by
  induction hd with
  | here => exact ⟨_, [], .root, hs, rfl, fun _ => rfl, .here⟩
  | @sub path kids n d h1 h2 ih =>
    obtain ⟨e, q, i1, i2, i3, _, i4⟩ := ih
    cases i2 with
    | @storage _ _ kids' items ht hn hg hp hl hname hsub =>
      obtain ⟨i, hi, he⟩ := List.mem_iff_getElem.1 (hp.mem_iff.2 h2)
      have hx : kids'[i]? = some (n, d) := by rw [List.getElem?_eq_getElem hi, he]
      have hc := List.getElem?_eq_getElem (show i < items.length by omega)
      obtain ⟨k1, k2, k3, k4⟩ := kid_entryW hk hm h1 hg hp hl hname hc hx
      refine ⟨⟨fileNameW (chars n), (wide (chars n)).length * 10 + 1, _⟩, q ++ [i], ?_, hsub i _ _ hc hx,
        (itemFrom_snoc _ q _ i _).2 ⟨e.item, i3, (hg i _).2 hc⟩, by simp, ?_⟩
      · have := ListedAtW.sub (s := ⟨fileNameW (chars n), (wide (chars n)).length * 10 + 1, _⟩) i1 k1 k2 k3 k4
        simpa using this
      · have := NamedFrom.sub i4 ((hg i _).2 hc)
        rwa [hname i _ _ hc hx] at this

theorem listed_lookupW (hk : IsUtf16 env.k) (hm : DriveMountable env chars doc) {path : List Bytes}
    {d : Doc} (hd : DocAt doc path d) {e : WideEntry}
    (h : ListedAtW env.k env.name16 env.cmp env.tree
      ((path.map fun n => fileNameW (chars n)).flatMap (0x5c :: ·)) (path.map chars) e)
    (hne : path ≠ []) :
    mountEntryByPathW env.k env.cmp (some env.tree)
      (drivePath (path.map fun n => fileNameW (chars n))) =
        .ok (some ⟨e.name, e.name.length + 1, e.item⟩) := by
  cases path with
  | nil => exact absurd rfl hne
  | cons n ns =>
    refine C103_open_by_path_partial hk _ _ _ _ _ _ h (by simp) ?_ (drivePath_length hm hd)
    intro cs hcs
    obtain ⟨m, hm', rfl⟩ := List.mem_map.1 hcs
    obtain ⟨p, x, hx⟩ := docAt_prefix hd m hm'
    exact ⟨(hm.name p m x hx).1, (hm.name p m x hx).2.1⟩

/-- The lookup of the path of a part. -/
theorem docAt_lookupW (hk : IsUtf16 env.k) (hm : DriveMountable env chars doc)
    (hs : Shows env.tree env.ctx ⟨none, env.tree.root⟩ doc) {path : List Bytes} {d : Doc}
    (hd : DocAt doc path d) :
    ∃ e e' q, mountEntryByPathW env.k env.cmp (some env.tree)
        (drivePath (path.map fun n => fileNameW (chars n))) = .ok (some e') ∧ e'.item = e.item ∧
      ListedAtW env.k env.name16 env.cmp env.tree
        ((path.map fun n => fileNameW (chars n)).flatMap (0x5c :: ·)) (path.map chars) e ∧
      Shows env.tree env.ctx e.item d ∧ itemAt env.tree q = some e.item ∧
      NamedFrom env.tree (·.name) ⟨none, env.tree.root⟩ path e.item := by
  obtain ⟨e, q, h1, h2, h3, h4, h5⟩ := docAt_listedW hk hm hs hd
  cases path with
  | nil =>
    refine ⟨e, e, q, ?_, rfl, h1, h2, h3, h5⟩
    rw [h4 rfl]
    exact C103_root hk env.cmp env.tree
  | cons n ns => exact ⟨e, _, q, listed_lookupW hk hm hd h1 (by simp), rfl, h1, h2, h3, h5⟩

theorem entryInfo_item {e e' : WideEntry} (h : e'.item = e.item) (info : DokanInfo) :
    entryInfo env info e' = entryInfo env info e := by
  unfold entryInfo fileModeW
  rw [h]

theorem information_of {p : Wide} {e e' : WideEntry}
    (h : mountEntryByPathW env.k env.cmp (some env.tree) p = .ok (some e')) (hi : e'.item = e.item)
    (info : DokanInfo) : getFileInformation env p info = .ok (.ok (entryInfo env info e)) := by
  unfold getFileInformation
  rw [h]
  simp only []
  rw [entryInfo_item hi]

/-- What is listed for a file entry. -/
def findOf (env : DokanEnv) (s : WideEntry) : FindData :=
  ⟨s.name, if s.nameSize ≤ 14 then s.name else [], entryInfo env .cleared s⟩

/-- What a listing gives for names that are too long. -/
def tooLong (env : DokanEnv) : DokanRes Unit := if env.longPaths then .ub else .ok (.error .failure)

theorem dokanFill_ok {s : WideEntry} (h : s.nameSize ≤ 260) :
    dokanFill env s.name s.nameSize (some s) = .ok (findOf env s) := by
  unfold dokanFill
  rw [if_neg (by unfold dokanMaxPath; split <;> omega), if_neg (by omega)]
  rfl

/-- The loop over the sub entries lists those before the first with a name that is too long. -/
theorem findLoop_eq {e : WideEntry} : ∀ (l : List WideEntry) (index : Nat),
    (∀ (i : Nat) s, l[i]? = some s →
      mountSubEntryW env.k env.name16 env.tree e ((index + i : Nat) : Int) = .ok s ∧ s.nameSize ≤ 32768) →
    findLoop env e l.length index = ((l.takeWhile fun s => s.nameSize ≤ 260).map (findOf env),
      if ∀ s ∈ l, s.nameSize ≤ 260 then .ok (.ok ()) else tooLong env)
  | [], _, _ => by rw [List.length_nil, findLoop, if_pos (by simp)]; rfl
  | s :: l, index, h => by
    rw [List.length_cons, findLoop]
    obtain ⟨h1, h2⟩ := h 0 s rfl
    rw [Nat.add_zero] at h1
    rw [h1]
    dsimp only
    by_cases hs : s.nameSize ≤ 260
    · rw [dokanFill_ok hs]
      dsimp only
      rw [findLoop_eq l (index + 1) (fun i x hx => by
        have := h (i + 1) x (by simpa using hx)
        rwa [show index + (i + 1) = index + 1 + i by omega] at this)]
      rw [List.takeWhile_cons_of_pos (by simpa using hs)]
      refine Prod.ext rfl ?_
      dsimp only
      congr 1
      simp [hs]
    · rw [List.takeWhile_cons_of_neg (by simpa using hs), if_neg (by simp [hs])]
      unfold dokanFill dokanMaxPath tooLong
      cases env.longPaths with
      | true => simp only [if_true]; rw [if_neg (by omega), if_pos (by omega)]; rfl
      | false => simp only [Bool.false_eq_true, if_false]; rw [if_pos (by omega)]; rfl

/-- The listing of a storage. -/
theorem find_storage (hk : IsUtf16 env.k) (hm : DriveMountable env chars doc)
    (hs : Shows env.tree env.ctx ⟨none, env.tree.root⟩ doc) {path : List Bytes}
    {kids : List (Bytes × Doc)} (hd : DocAt doc path (.storage kids)) :
    ∃ (e e' : WideEntry) (kids' : List (Bytes × Doc)) (l : List WideEntry), mountEntryByPathW env.k env.cmp (some env.tree)
        (drivePath (path.map fun n => fileNameW (chars n))) = .ok (some e') ∧ e'.item = e.item ∧
      (e.item.entry.type = 1 ∨ e.item.entry.type = 5) ∧ kids'.Perm kids ∧
      l.map (·.name) = (kids'.map fun x => fileNameW (chars x.1)) ∧
      l.map (·.nameSize) = (kids'.map fun x => (wide (chars x.1)).length * 10 + 1) ∧
      (∀ s ∈ l, ∀ info, getFileInformation env
        (drivePath ((path.map fun n => fileNameW (chars n)) ++ [s.name])) info =
          .ok (.ok (entryInfo env info s))) ∧
      findFiles env (drivePath (path.map fun n => fileNameW (chars n))) =
        (⟨[0x2e], [0x2e], entryInfo env .cleared e⟩ ::
          ⟨[0x2e, 0x2e], [0x2e, 0x2e], setInfo .cleared 0 0 0 0 0⟩ ::
          (l.takeWhile fun s => s.nameSize ≤ 260).map (findOf env),
         if ∀ s ∈ l, s.nameSize ≤ 260 then .ok (.ok ()) else tooLong env) := by
  obtain ⟨e, e', q, h1, hee, h0, h2, h3, -⟩ := docAt_lookupW hk hm hs hd
  cases h2 with
  | @storage _ _ kids' items ht hn hg hp hl hname hsub =>
    let mk : Bytes × Doc → Item → WideEntry := fun x c =>
      ⟨fileNameW (chars x.1), (wide (chars x.1)).length * 10 + 1, c⟩
    let l : List WideEntry := List.zipWith mk kids' items
    have hll : l.length = numberOfSubItems env.tree e.item := by
      simp only [l, List.length_zipWith]; omega
    have hli : ∀ (i : Nat) s, l[i]? = some s → ∃ x c, kids'[i]? = some x ∧ items[i]? = some c ∧
        s = mk x c := by
      intro i s h
      simp only [l, List.getElem?_zipWith] at h
      cases hx : kids'[i]? with
      | none => rw [hx] at h; simp at h
      | some x =>
        cases hc : items[i]? with
        | none => rw [hx, hc] at h; simp at h
        | some c =>
          rw [hx, hc] at h
          exact ⟨x, c, rfl, rfl, (Option.some.inj h).symm⟩
    have hlm : ∀ {β : Type} (g : WideEntry → β) (g' : Bytes × Doc → β), (∀ x c, g (mk x c) = g' x) →
        l.map g = kids'.map g' := by
      intro β g g' hgg
      apply List.ext_getElem?
      intro i
      simp only [l, List.getElem?_map, List.getElem?_zipWith]
      cases hx : kids'[i]? with
      | none => simp
      | some x =>
        have hi : i < items.length := by
          rw [hl]; exact (List.getElem?_eq_some_iff.1 hx).1
        rw [List.getElem?_eq_getElem hi]
        simp [hgg]
    have hent := fun {i c x} (hc : items[i]? = some c) (hx : kids'[i]? = some x) =>
      kid_entryW hk hm hd hg hp hl hname hc hx
    have hloop := findLoop_eq (env := env) (e := e) l 0 (by
      intro i s h'
      obtain ⟨x, c, hx, hc, rfl⟩ := hli i s h'
      rw [Nat.zero_add]
      refine ⟨(hent hc hx).1, ?_⟩
      have hdx : DocAt doc (path ++ [x.1]) x.2 := .sub hd (hp.mem_iff.1 (List.mem_of_getElem? hx))
      have := (hm.name path x.1 x.2 hdx).2.2.2
      show (wide (chars x.1)).length * 10 + 1 ≤ 32768
      omega)
    refine ⟨e, e', kids', l, h1, hee, ht, hp, hlm _ _ fun _ _ => rfl, hlm _ _ fun _ _ => rfl, ?_, ?_⟩
    · intro s hsl info
      obtain ⟨i, hi⟩ := List.mem_iff_getElem?.1 hsl
      obtain ⟨x, c, hx, hc, rfl⟩ := hli i s hi
      have hdx : DocAt doc (path ++ [x.1]) x.2 := .sub hd (hp.mem_iff.1 (List.mem_of_getElem? hx))
      obtain ⟨k1, k2, k3, k4⟩ := hent hc hx
      have hlist := ListedAtW.sub (s := mk x c) h0 k1 k2 k3 k4
      have := listed_lookupW hk hm hdx (e := mk x c) (by simpa [mk] using hlist) (by simp)
      rw [List.map_append] at this
      exact information_of (e := mk x c) this rfl info
    · unfold findFiles
      rw [h1]
      dsimp only
      unfold findEntries
      have hf1 : dokanFill env [0x2e] 2 (some e') = .ok ⟨[0x2e], [0x2e], entryInfo env .cleared e⟩ := by
        unfold dokanFill
        rw [if_neg (by unfold dokanMaxPath; split <;> omega), if_neg (by omega), if_pos (by omega)]
        dsimp only
        rw [entryInfo_item hee]
      have hf2 : dokanFill env [0x2e, 0x2e] 3 none =
          .ok ⟨[0x2e, 0x2e], [0x2e, 0x2e], setInfo .cleared 0 0 0 0 0⟩ := by
        unfold dokanFill
        rw [if_neg (by unfold dokanMaxPath; split <;> omega), if_neg (by omega), if_pos (by omega)]
      rw [hf1]
      dsimp only
      rw [hf2]
      dsimp only
      have hsame : ∀ n i, findLoop env e' n i = findLoop env e n i := by
        intro n
        induction n with
        | zero => intro i; rfl
        | succ n ih =>
          intro i
          unfold findLoop mountSubEntryW
          rw [hee, ih]
      rw [hsame, hee, ← hll, hloop]

theorem takeWhile_of_all' {α : Type} {p : α → Bool} : ∀ {l : List α}, (∀ x ∈ l, p x = true) →
    l.takeWhile p = l
  | [], _ => rfl
  | x :: l, h => by
    rw [List.takeWhile_cons_of_pos (h x (by simp)), takeWhile_of_all' fun y hy => h y (by simp [hy])]

/-- A drive of a hierarchy of items that shows a document whose names have at most 25 code units. -/
theorem drive_shown (hk : IsUtf16 env.k) (hm : DriveMountable env chars doc)
    (hs : Shows env.tree env.ctx ⟨none, env.tree.root⟩ doc)
    (hshort : ∀ path n d, DocAt doc (path ++ [n]) d → (wide (chars n)).length ≤ 25)
    (hitem : ∀ q it, itemAt env.tree q = some it → it.entry.size < 2 ^ 64) :
    DrivePresents env (fun n => fileNameW (chars n)) doc := by
  refine ⟨?_, ?_, ?_, ?_, ?_⟩
  · intro path n d h
    obtain ⟨h1, _, h3, _⟩ := hm.name path n d h
    exact C103_valid_partial _ h1 h3
  · intro path kids h
    have hnd := hm.distinct path kids h
    rw [List.nodup_iff_pairwise_ne, List.pairwise_map] at hnd ⊢
    refine hnd.imp_of_mem ?_
    intro a b ha hb hne heq
    have da := DocAt.sub h (show (a.1, a.2) ∈ kids from ha)
    have db := DocAt.sub h (show (b.1, b.2) ∈ kids from hb)
    have hu := fileNameW_inj hk _ _ (hm.name _ _ _ da).1 (hm.name _ _ _ db).1
      (by have := (hm.name _ _ _ da).2.2.2; omega) heq
    have h1 := hm.compare path kids h a ha b hb
    have h2 := hm.compare path kids h b hb b hb
    rw [hu, h2] at h1
    simp at h1
    exact hne h1
  · intro path kids h
    obtain ⟨e, e', kids', l, h1, hee, ht, hp, hln, hls, hli, hfind⟩ := find_storage hk hm hs h
    have hall : ∀ s ∈ l, s.nameSize ≤ 260 := by
      intro s hsl
      have : s.nameSize ∈ l.map (·.nameSize) := List.mem_map.2 ⟨s, hsl, rfl⟩
      rw [hls] at this
      obtain ⟨x, hx, he⟩ := List.mem_map.1 this
      have hdx : DocAt doc (path ++ [x.1]) x.2 := .sub h (hp.mem_iff.1 hx)
      have := hshort path x.1 x.2 hdx
      omega
    rw [if_pos hall] at hfind
    refine ⟨?_, ?_, _, _, _, hfind, rfl, rfl, information_of h1 hee _, ?_, ?_⟩
    · intro info
      refine ⟨_, information_of h1 hee info, ?_⟩
      unfold entryInfo setInfo fileModeW
      dsimp only
      rw [if_pos ht]
      decide
    · intro r hr
      rw [opensFile_eq hr]
      exact ⟨_, dokanLookup_of h1⟩
    · rw [takeWhile_of_all' (by simpa using hall), List.map_map]
      have : (l.map (FindData.name ∘ findOf env)) = l.map (·.name) := rfl
      rw [this, hln]
      exact hp.map _
    · intro x hx
      rw [takeWhile_of_all' (by simpa using hall)] at hx
      obtain ⟨s, hsl, rfl⟩ := List.mem_map.1 hx
      exact hli s hsl .cleared
  · intro path data h
    obtain ⟨e, e', q, h1, hee, h0, h2, h3, -⟩ := docAt_lookupW hk hm hs h
    have hf := fun info => entryInfo_fields env info e (hitem q _ h3)
    constructor
    · intro info hinfo
      refine ⟨_, information_of h1 hee info, ?_, ?_⟩
      · cases h2 with
        | stream ht =>
          cases hdir : (entryInfo env info e).directory with
          | false => rfl
          | true =>
            have := (hf info).1.1 hdir
            rw [ht] at this
            exact absurd this (by decide)
      · rw [(hf info).2.1]
        cases h2 with
        | stream _ _ hsz =>
          rw [hsz]
          split
          · rename_i h0
            rw [h0]
            exact hinfo (List.length_eq_zero_iff.1 h0)
          · rfl
    · intro r hr
      rw [opensFile_eq hr]
      refine ⟨_, dokanLookup_of h1, shows_driveReads (Int.le_refl 0) ?_⟩
      show Shows env.tree env.ctx e'.item _
      rw [hee]
      exact h2
  · intro p r h ha hr
    obtain ⟨hc, he⟩ := dokanLookup_cur (asksFile_ok ha hr)
    obtain ⟨q, hq⟩ := mountEntryByPathW_item he
    obtain ⟨path, d, h1, h2⟩ := itemAt_docAt hs _ q _ rfl hq
    exact ⟨path, d, h1, shows_driveReads (by rw [hc]; exact Int.le_refl 0) h2⟩

/-! ### C104 -/

theorem storedName_units (e : Endian) (cs : List Nat) :
    (storedName e cs).length = 2 * (wide cs).length + 2 := by
  have h : ∀ us : List UInt16, (us.flatMap (unitBytes e)).length = 2 * us.length := by
    intro us
    induction us with
    | nil => rfl
    | cons a us ih =>
      rw [List.flatMap_cons, List.length_append, List.length_cons, ih]
      cases e <;> simp only [unitBytes, List.length_cons, List.length_nil] <;> omega
  unfold storedName
  rw [List.length_append, h]
  rfl

/-- The name of an item that has a stored name. -/
theorem mountItemNameW_stored {u : Libuna} (hu : IsLibuna u) {io : IoHandle} {cs : List Nat}
    (hc : NameText cs) (d : DirEntry) (hd : d.name = storedName io.byteOrder cs)
    (hlen : d.name.length ≤ 64) : mountItemNameW u io d = some (wide cs) := by
  have h1 := storedName_units io.byteOrder cs
  rw [hd] at hlen
  have h := stored_hasName hu (it := ⟨none, d⟩) (io := io) hc hd
  unfold mountItemNameW
  unfold wide at h1
  rw [h.size16]
  dsimp only
  rw [if_neg (by unfold ssizeMax; omega), h.name16 _ (Nat.le_refl _) (by omega)]
  simp [wide]

/-- A stored document with Unicode names can be mounted on a drive. -/
theorem driveMountable_text {u : Libuna} (hu : IsLibuna u) {wr : Writer} {kids : List (Bytes × Doc)}
    (hst : Storable wr kids) (hn : TextNames wr.order (.storage kids)) (hm : DriveNames wr.order kids)
    {io : IoHandle} (hio : io.byteOrder = wr.order) (hcmp : env.cmp = u.cmp16 wr.order)
    (hname : env.name16 = mountItemNameW u io) :
    DriveMountable env (fun n => (textOf wr.order n).getD []) (.storage kids) := by
  have key : ∀ path n d, DocAt (.storage kids) (path ++ [n]) d → ∃ cs, NameText cs ∧
      n = storedName wr.order cs ∧ (textOf wr.order n).getD [] = cs ∧ n ∈ namesOfKids kids := by
    intro path n d h
    obtain ⟨cs, h1, rfl⟩ := hn.text path n d h
    refine ⟨cs, h1, rfl, ?_, (docAt_names h).1 _ (by simp)⟩
    rw [textOf_stored _ h1]
    rfl
  refine ⟨?_, ?_, ?_, hn.distinct, ?_⟩
  · intro path n d h
    obtain ⟨cs, h1, rfl, h3, h4⟩ := key path n d h
    rw [h3]
    obtain ⟨m1, m2⟩ := hm cs h1 h4
    refine ⟨h1.chars, m1, m2, ?_⟩
    have e1 := storedName_units wr.order cs
    have e2 := hst.names _ h4
    omega
  · intro e path d h
    obtain ⟨cs, h1, h2, h3, h4⟩ := key path e.name d h
    rw [h3, hname]
    exact mountItemNameW_stored hu h1 e (by rw [h2, hio]) (hst.names _ h4)
  · intro path ks h a ha b hb
    obtain ⟨ca, a1, a2, a3, -⟩ := key path a.1 a.2 (.sub h ha)
    obtain ⟨cb, b1, b2, -, -⟩ := key path b.1 b.2 (.sub h hb)
    rw [a3, hcmp, b2]
    show u.cmp16 wr.order (ca.flatMap encode16) _ = _
    rw [hu.cmp16 _ _ _ a1 b1, a2]
    congr 1
    have : ca = cb ↔ storedName wr.order ca = storedName wr.order cb := by
      refine ⟨fun h => by rw [h], fun h => ?_⟩
      have := congrArg (textOf wr.order) h
      rw [textOf_stored _ a1, textOf_stored _ b1] at this
      exact Option.some.inj this
    exact decide_eq_decide.2 this
  · intro path d h
    have hlen := (docAt_depth h).1
    rw [Doc.names, namesOfKids_count] at hlen
    have := countKids_lt hst
    omega

end

/-- A stored document is opened, and shown by the items of its drive. -/
theorem opened_drive {u : Libuna} (hu : IsLibuna u) {wr : Writer}
    {kids : List (Bytes × Doc)} (hst : Storable wr kids) (hn : TextNames wr.order (.storage kids))
    (hm : DriveNames wr.order kids)
    {st : FileState} (hr : Reachable (u.cmp8 wr.order) st) (hclosed : st.file.handle = none)
    {h : HandleId} (hdev : st.world.dev h = Dev.ofBytes (encodeFile wr kids))
    {flags : Nat} (hfl : flags % 4 = 1) :
    (openHandle (u.cmp8 wr.order) h flags {} st).1 = .ok () ∧
    ∃ t f m, (openHandle (u.cmp8 wr.order) h flags {} st).2.file.tree = some t ∧
      (openHandle (u.cmp8 wr.order) h flags {} st).2.file.ctx
        ((openHandle (u.cmp8 wr.order) h flags {} st).2.world.dev h) = some f ∧
      (createTree (entriesOfSlots (slotsOfFile wr kids)) (u.cmp8 wr.order)).res = .ok (some (t, m)) ∧
      (∀ q it, itemAt t q = some it → it.entry.size < 2 ^ 64) ∧
      Shows t f ⟨none, t.root⟩ (.storage kids) ∧
      ∀ (k : WideCodec) (mounted : Nat) (longPaths : Bool),
        DriveMountable ⟨k, u.cmp16 wr.order, mountItemNameW u f.io, t, f, mounted, longPaths⟩
          (fun n => (textOf wr.order n).getD []) (.storage kids) := by
  obtain ⟨h1, t, f, m, h2, h3, h4, h5, h6⟩ :=
    opened_tree hst (textNames_comparable hu hn) hr hclosed hdev hfl
  have hbo : f.io.byteOrder = wr.order := by
    have := opened_byteOrder hr hdev (encodeFile_layout hst).fits (encodeFile_layout hst).header h1
    rw [← this]
    unfold OleFile.ctx at h3
    split at h3
    · cases h3; rfl
    · cases h3
  have hin : ∀ q it, itemAt t q = some it → it.entry ∈ entriesOfSlots (slotsOfFile wr kids) :=
    (C16_no_item_twice _ _ (entriesOfSlots_nodup _) _ m h4).1
  exact ⟨h1, t, f, m, h2, h3, h4, fun q it hq => Nat.lt_trans (h5 _ (hin q it hq)).size (by decide), h6,
    fun k mounted longPaths => driveMountable_text hu hst hn hm hbo rfl rfl⟩

/-- C104: a stored document whose names have at most 25 UTF-16 code units, mounted as a drive: the storages are
  directories with their parts in them and the streams are files with their data, under the file names of the
  parts; there is nothing else; and they have the stored times.  `u` is libuna, `enc` its UTF-16 encoder.

  Missing for the full property: longer names (`C104_long_name_violated`), names that are not `Ordinary` or have a
  backslash (C103), the size of an empty file (`C104_empty_size_violated`), the entry of the parent directory
  (`C104_parent_violated`) and the listing of a file (`C104_file_listed_violated`). -/
theorem C104_written_document_partial {u : Libuna} (hu : IsLibuna u) (wr : Writer)
    (kids : List (Bytes × Doc)) (hst : Storable wr kids) (hn : TextNames wr.order (.storage kids))
    (hm : DriveNames wr.order kids)
    (hshort : ∀ cs, NameText cs → storedName wr.order cs ∈ namesOfKids kids → (wide cs).length ≤ 25)
    (st : FileState) (hr : Reachable (u.cmp8 wr.order) st) (hclosed : st.file.handle = none)
    (h : HandleId) (hdev : st.world.dev h = Dev.ofBytes (encodeFile wr kids))
    (flags : Nat) (hfl : flags % 4 = 1) :
    (openHandle (u.cmp8 wr.order) h flags {} st).1 = .ok () ∧
    ∃ t f, (openHandle (u.cmp8 wr.order) h flags {} st).2.file.tree = some t ∧
      (openHandle (u.cmp8 wr.order) h flags {} st).2.file.ctx
        ((openHandle (u.cmp8 wr.order) h flags {} st).2.world.dev h) = some f ∧
      ∀ (enc : Nat → Option Wide) (mounted : Nat) (longPaths : Bool),
        (∀ c, Scalar c → enc c = some (encode16 c)) → mounted < 2 ^ 64 →
        let env : DokanEnv := ⟨⟨u.dec16, enc⟩, u.cmp16 wr.order, mountItemNameW u f.io, t, f, mounted, longPaths⟩
        ∃ mname, (∀ cs, NameText cs → storedName wr.order cs ∈ namesOfKids kids →
            mname (storedName wr.order cs) = fileNameW cs) ∧
          DrivePresents env mname (.storage kids) ∧
          DriveTimes env mname (.storage kids) wr.marks.entry := by
  obtain ⟨h1, t, f, m, h2, h3, h4, hsize, h6, hmt⟩ := opened_drive hu hst hn hm hr hclosed hdev hfl
  refine ⟨h1, t, f, h2, h3, ?_⟩
  intro enc mounted longPaths henc hmounted env
  have hk : IsUtf16 env.k := wideCodec_isUtf16 hu henc
  have hmt := hmt ⟨u.dec16, enc⟩ mounted longPaths
  refine ⟨fun n => fileNameW ((textOf wr.order n).getD []), ?_, drive_shown hk hmt h6 ?_ hsize, ?_⟩
  · intro cs hcs _
    dsimp only
    rw [textOf_stored _ hcs]
    rfl
  · intro path n d hd
    obtain ⟨cs, c1, rfl⟩ := hn.text path n d hd
    rw [textOf_stored _ c1]
    exact hshort cs c1 ((docAt_names hd).1 _ (by simp))
  · intro path d i hp info
    obtain ⟨e, e', q, g1, hee, -, -, g3, g4⟩ := docAt_lookupW hk hmt h6 (placedAt_docAt hp)
    obtain ⟨t1, t2⟩ := placed_times hst h4 hn.distinct hp g4
    obtain ⟨-, -, f1, f2, f3⟩ := entryInfo_fields env info e (hsize q _ g3)
    have k1 := (hst.marks.entry i).created
    have k2 := (hst.marks.entry i).modified
    refine ⟨_, information_of g1 hee info, ?_, ?_, ?_⟩
    · rw [f1, timeValue_fileTime (by rw [t1]; exact k1), t1]
    · rw [f2, timeValue_fileTime (by rw [t2]; exact k2), t2]
    · rw [f3, timeValue_fileTime hmounted]

/-! ### What a drive gets wrong -/

/-- C104 fails for every storage that has a part with a name of 26 UTF-16 code units or more (such as
  `DocumentSummaryInformation` with the U+5 before it): though each part can be opened, the listing of the
  directory fails or, if the program is built for long paths, has undefined behaviour. -/
theorem C104_long_name_violated {u : Libuna} (hu : IsLibuna u) (wr : Writer)
    (kids : List (Bytes × Doc)) (hst : Storable wr kids) (hn : TextNames wr.order (.storage kids))
    (hm : DriveNames wr.order kids)
    (st : FileState) (hr : Reachable (u.cmp8 wr.order) st) (hclosed : st.file.handle = none)
    (h : HandleId) (hdev : st.world.dev h = Dev.ofBytes (encodeFile wr kids))
    (flags : Nat) (hfl : flags % 4 = 1) :
    (openHandle (u.cmp8 wr.order) h flags {} st).1 = .ok () ∧
    ∃ t f, (openHandle (u.cmp8 wr.order) h flags {} st).2.file.tree = some t ∧
      (openHandle (u.cmp8 wr.order) h flags {} st).2.file.ctx
        ((openHandle (u.cmp8 wr.order) h flags {} st).2.world.dev h) = some f ∧
      ∀ (enc : Nat → Option Wide) (mounted : Nat) (longPaths : Bool),
        (∀ c, Scalar c → enc c = some (encode16 c)) →
        let env : DokanEnv := ⟨⟨u.dec16, enc⟩, u.cmp16 wr.order, mountItemNameW u f.io, t, f, mounted, longPaths⟩
        ∀ (names : List (List Nat)) ks cs d, (∀ n ∈ names, NameText n) → NameText cs →
          DocAt (.storage kids) (names.map (storedName wr.order)) (.storage ks) →
          (storedName wr.order cs, d) ∈ ks → 26 ≤ (wide cs).length →
          (∀ r, OpensFile env (drivePath ((names ++ [cs]).map fileNameW)) r → ∃ x, r = .ok (.ok x) ∧
            DriveReads env x d) ∧
          (findFiles env (drivePath (names.map fileNameW))).2 =
            if longPaths then .ub else .ok (.error .failure) := by
  obtain ⟨h1, t, f, m, h2, h3, h4, hsize, h6, hmt⟩ := opened_drive hu hst hn hm hr hclosed hdev hfl
  refine ⟨h1, t, f, h2, h3, ?_⟩
  intro enc mounted longPaths henc env names ks cs d hnt hcs hd hmem hlen
  have hk : IsUtf16 env.k := wideCodec_isUtf16 hu henc
  have hmt := hmt ⟨u.dec16, enc⟩ mounted longPaths
  have hpath : ∀ l : List (List Nat), (∀ n ∈ l, NameText n) → (l.map (storedName wr.order)).map
      (fun n => fileNameW ((textOf wr.order n).getD [])) = l.map fileNameW := by
    intro l hl
    rw [List.map_map]
    refine List.map_congr_left fun n hn => ?_
    show fileNameW ((textOf wr.order (storedName wr.order n)).getD []) = _
    rw [textOf_stored _ (hl n hn)]
    rfl
  constructor
  · intro r ho
    have hd' : DocAt (.storage kids) ((names ++ [cs]).map (storedName wr.order)) d := by
      rw [List.map_append]; exact .sub hd hmem
    obtain ⟨e, e', q, g1, hee, -, g2, -, -⟩ := docAt_lookupW hk hmt h6 hd'
    rw [hpath _ (by
      intro n hn'
      rcases List.mem_append.1 hn' with h | h
      · exact hnt n h
      · rw [List.mem_singleton.1 h]; exact hcs)] at g1
    rw [opensFile_eq ho]
    refine ⟨_, dokanLookup_of g1, shows_driveReads (Int.le_refl 0) ?_⟩
    show Shows env.tree env.ctx e'.item _
    rw [hee]
    exact g2
  · obtain ⟨e, e', kids', l, -, -, -, hp, -, hls, -, hfind⟩ := find_storage hk hmt h6 hd
    rw [hpath names hnt] at hfind
    rw [hfind]
    have hex : ¬ ∀ s ∈ l, s.nameSize ≤ 260 := by
      intro hall
      have : (wide ((textOf wr.order (storedName wr.order cs)).getD [])).length * 10 + 1 ∈ l.map (·.nameSize) := by
        rw [hls]
        exact List.mem_map.2 ⟨_, hp.mem_iff.2 hmem, rfl⟩
      rw [textOf_stored _ hcs] at this
      obtain ⟨s, hsl, he⟩ := List.mem_map.1 this
      have h1 := hall s hsl
      have h2 : s.nameSize = (wide cs).length * 10 + 1 := he
      omega
    dsimp only
    rw [if_neg hex]
    rfl

/-- C104 fails for the parent directory: in every listing that succeeds, `..` is not a directory and has no
  times. -/
theorem C104_parent_violated (env : DokanEnv) (p : Wide) (l : List FindData)
    (h : findFiles env p = (l, .ok (.ok ()))) :
    ∃ self parent rest, l = self :: parent :: rest ∧ self.name = [0x2e] ∧ parent.name = [0x2e, 0x2e] ∧
      parent.info.directory = false ∧ timeValue parent.info.created = 0 ∧
      timeValue parent.info.written = 0 ∧ timeValue parent.info.accessed = 0 := by
  unfold findFiles at h
  split at h
  · unfold findEntries at h
    split at h
    · rename_i self hself
      split at h
      · rename_i parent hparent
        have hl := (Prod.mk.inj h).1
        refine ⟨self, parent, _, hl.symm, ?_, ?_⟩
        · unfold dokanFill at hself
          split at hself
          · cases hself
          · split at hself
            · cases hself
            · cases hself; rfl
        · unfold dokanFill at hparent
          split at hparent
          · cases hparent
          · split at hparent
            · cases hparent
            · cases hparent
              have hz := timeValue_fileTime (Nat.two_pow_pos 64)
              exact ⟨rfl, rfl, hz, hz, hz⟩
      all_goals cases (Prod.mk.inj h).2
    all_goals cases (Prod.mk.inj h).2
  all_goals cases (Prod.mk.inj h).2

section
variable {env : DokanEnv} {chars : Bytes → List Nat} {doc : Doc}

/-- C104 fails for empty files: the size in their attributes is the one that the structure had before. -/
theorem C104_empty_size_violated (hk : IsUtf16 env.k) (hm : DriveMountable env chars doc)
    (hs : Shows env.tree env.ctx ⟨none, env.tree.root⟩ doc) (path : List Bytes)
    (hd : DocAt doc path (.stream [])) (info : DokanInfo) :
    ∃ s, getFileInformation env (drivePath (path.map fun n => fileNameW (chars n))) info = .ok (.ok s) ∧
      fileSize s = fileSize info := by
  obtain ⟨e, e', q, h1, hee, -, h2, -, -⟩ := docAt_lookupW hk hm hs hd
  refine ⟨_, information_of h1 hee info, ?_⟩
  cases h2 with
  | stream _ _ hsz =>
    have h0 : e.item.entry.size = 0 := hsz
    rw [(entryInfo_fields env info e (by rw [h0]; exact Nat.two_pow_pos 64)).2.1, if_pos h0]

/-- C104 fails for the listing of a file: it succeeds, with the entries of an empty directory. -/
theorem C104_file_listed_violated (hk : IsUtf16 env.k) (hm : DriveMountable env chars doc)
    (hs : Shows env.tree env.ctx ⟨none, env.tree.root⟩ doc) (path : List Bytes) (data : Bytes)
    (hd : DocAt doc path (.stream data)) :
    ∃ self parent, findFiles env (drivePath (path.map fun n => fileNameW (chars n))) =
        ([self, parent], .ok (.ok ())) ∧ self.name = [0x2e] ∧ parent.name = [0x2e, 0x2e] := by
  obtain ⟨e, e', q, h1, hee, -, h2, -, -⟩ := docAt_lookupW hk hm hs hd
  cases h2 with
  | stream _ h0 _ =>
    have hf : ∀ name size x, size ≤ 260 → ∃ i a, dokanFill env name size x = .ok ⟨name, a, i⟩ := by
      intro name size x hs
      unfold dokanFill
      rw [if_neg (by unfold dokanMaxPath; split <;> omega), if_neg (by omega)]
      exact ⟨_, _, rfl⟩
    obtain ⟨i1, a1, f1⟩ := hf [0x2e] 2 (some e') (by decide)
    obtain ⟨i2, a2, f2⟩ := hf [0x2e, 0x2e] 3 none (by decide)
    refine ⟨⟨_, a1, i1⟩, ⟨_, a2, i2⟩, ?_, rfl, rfl⟩
    unfold findFiles
    rw [h1]
    dsimp only
    unfold findEntries
    rw [f1]
    dsimp only
    rw [f2]
    dsimp only
    rw [hee, h0]
    rfl

end

/-- C104 fails for `OPEN_ALWAYS`, which opens a file if there is one, with Dokan before version 0.8: no file is
  found. -/
theorem C104_open_always_violated (env : DokanEnv) (p : Wide) (access : Nat) (ha : access / 2 ^ 30 % 2 = 0) :
    createFile env p access 4 none = .ok (.error .notFound) := by
  unfold createFile
  rw [if_neg (by omega), if_neg (by decide), if_neg (by decide), if_pos rfl]

/-- Files and directories are opened only without write access, and only if they exist: never to create or
  to overwrite. -/
theorem C104_read_only (env : DokanEnv) (p : Wide) (access disposition : Nat) (h : DokanHandle) :
    (createFile env p access disposition none = .ok (.ok h) →
      access / 2 ^ 30 % 2 = 0 ∧ disposition = 3 ∧ ∃ s, getFileInformation env p .cleared = .ok (.ok s)) ∧
    (zwCreateFile env p access disposition none = .ok (.ok h) →
      access / 2 ^ 30 % 2 = 0 ∧ (disposition = 1 ∨ disposition = 3) ∧
        ∃ s, getFileInformation env p .cleared = .ok (.ok s)) := by
  constructor
  · intro ho
    obtain ⟨h1, h2, h3⟩ := createFile_ok ho
    exact ⟨h1, h2, _, information_of (dokanLookup_cur h3).2 rfl _⟩
  · intro ho
    obtain ⟨h1, h2, h3⟩ := zwCreateFile_ok ho
    exact ⟨h1, h2, _, information_of (dokanLookup_cur h3).2 rfl _⟩

/-! ### Examples -/

theorem unicodeDoc_driveNames (e : Endian) : DriveNames e (unicodeDoc e) ∧
    ∀ cs, NameText cs → storedName e cs ∈ namesOfKids (unicodeDoc e) → (wide cs).length ≤ 25 := by
  have : ∀ n ∈ namesOfKids (unicodeDoc e), 0x5c ∉ (textOf e n).getD [] ∧ Ordinary ((textOf e n).getD []) ∧
      (wide ((textOf e n).getD [])).length ≤ 25 := by
    simp only [unicodeDoc, namesOfKids, Doc.names, List.append_nil]
    cases e <;> decide +kernel
  constructor
  · intro cs hcs hmem
    have := this _ hmem
    rw [textOf_stored e hcs] at this
    exact ⟨this.1, this.2.1⟩
  · intro cs hcs hmem
    have := (this _ hmem).2.2
    rw [textOf_stored e hcs] at this
    exact this

/-- The small Unicode document as a drive: the file `\\Ä\\😀` has its two bytes and its times
  (C104_written_document_partial). -/
example (e : Endian) (longPaths : Bool) : ∃ env h s, DokanEnv.longPaths env = longPaths ∧
    createFile env [0x5c, 0xc4, 0x5c, 0xd83d, 0xde00] 0x80000000 3 none = .ok (.ok h) ∧
    (dokanRead env 100 0 (some h)).1 = .ok (.ok [4, 5]) ∧
    getFileInformation env [0x5c, 0xc4, 0x5c, 0xd83d, 0xde00] .cleared = .ok (.ok s) ∧
    fileSize s = 2 ∧ timeValue s.created = 4 ∧ timeValue s.written = 132223536000000004 := by
  have hr : Reachable (plainUna.cmp8 e) ⟨OleFile.new, { sampleWorld with
      dev := fun _ => Dev.ofBytes (encodeFile ⟨e, 9, 6, 4096, datedMarks⟩ (unicodeDoc e)) }⟩ :=
    ⟨_, [], ⟨rfl, rfl⟩, rfl⟩
  obtain ⟨h1, t, f, h2, h3, h4⟩ := C104_written_document_partial plainUna_isLibuna
    ⟨e, 9, 6, 4096, datedMarks⟩ (unicodeDoc e) (datedDoc_storable e) (unicodeDoc_text e)
    (unicodeDoc_driveNames e).1 (unicodeDoc_driveNames e).2 _ hr rfl (.user 1) rfl 1 rfl
  obtain ⟨mname, h5, h6, h7⟩ := h4 libWide.enc 0 longPaths (fun _ hc => if_pos hc) (by decide)
  have n1 := h5 [0xc4] (by decide) (by simp [unicodeDoc, namesOfKids, Doc.names])
  have n2 := h5 [0x1f600] (by decide) (by simp [unicodeDoc, namesOfKids, Doc.names])
  dsimp only at n1 n2
  have hp : drivePath (([[0xc4], [0x1f600]].map (storedName e)).map mname) =
      [0x5c, 0xc4, 0x5c, 0xd83d, 0xde00] := by
    simp only [List.map_cons, List.map_nil, n1, n2]
    decide
  have hpl := datedDoc_placed e
  obtain ⟨g1, g2⟩ := h6.streams _ _ (placedAt_docAt hpl)
  obtain ⟨s, g3, -, g4⟩ := g1 .cleared (fun h => by cases h)
  obtain ⟨s', g5, g6, g7, -⟩ := h7 _ _ _ hpl .cleared
  rw [g3] at g5
  cases g5
  rw [hp] at g2 g3
  obtain ⟨h, g8, g9⟩ := g2 _ (.old (access := 0x80000000) (by decide))
  exact ⟨_, h, s, rfl, g8, g9 100 0 (by decide) (by decide), g3, g4, g6, g7⟩

/-- A document with a stream of the name of the document summary information. -/
def longNameDoc (e : Endian) : List (Bytes × Doc) :=
  [(storedName e (5 :: "DocumentSummaryInformation".toList.map Char.toNat), .stream [1, 2])]

theorem longNameDoc_names (e : Endian) : ∀ n ∈ namesOfKids (longNameDoc e), n.length ≤ 64 ∧
    0x5c ∉ (textOf e n).getD [] ∧ Ordinary ((textOf e n).getD []) := by
  simp only [longNameDoc, namesOfKids, Doc.names, List.append_nil]
  cases e <;> decide +kernel

/-- Its root cannot be listed (C104_long_name_violated). -/
example (e : Endian) : ∃ env, DokanEnv.longPaths env = false ∧
    (findFiles env [0x5c]).2 = .ok (.error .failure) := by
  have hst : Storable ⟨e, 9, 6, 4096, {}⟩ (longNameDoc e) := by
    refine (C60_storable e {} noMarks_fits (by simp [longNameDoc])
      (fun n hn => (longNameDoc_names e n hn).1) ?_).2 ?_
    · simp [longNameDoc, countKids, Doc.count]
    · simp [longNameDoc, streamsOfKids, Doc.streams]
  have htext : TextNames e (.storage (longNameDoc e)) := by
    refine textNames_storage ?_ (by cases e <;> decide +kernel)
    intro k hk
    simp only [longNameDoc, List.mem_cons, List.not_mem_nil, or_false] at hk
    rw [hk]
    exact ⟨⟨_, by decide +kernel, rfl⟩, textNames_stream _ _⟩
  have hm : DriveNames e (longNameDoc e) := by
    intro cs hcs hmem
    have := (longNameDoc_names e _ hmem).2
    rw [textOf_stored e hcs] at this
    exact this
  have hr : Reachable (plainUna.cmp8 e) ⟨OleFile.new, { sampleWorld with
      dev := fun _ => Dev.ofBytes (encodeFile ⟨e, 9, 6, 4096, {}⟩ (longNameDoc e)) }⟩ :=
    ⟨_, [], ⟨rfl, rfl⟩, rfl⟩
  obtain ⟨-, t, f, -, -, h4⟩ := C104_long_name_violated plainUna_isLibuna ⟨e, 9, 6, 4096, {}⟩ (longNameDoc e)
    hst htext hm _ hr rfl (.user 1) rfl 1 rfl
  have h5 := (h4 libWide.enc 0 false (fun _ hc => if_pos hc) [] (longNameDoc e) _ _ (by simp)
    (by decide +kernel) .here (List.mem_cons_self) (by decide +kernel)).2
  exact ⟨_, rfl, h5⟩

end Olecf.Props
