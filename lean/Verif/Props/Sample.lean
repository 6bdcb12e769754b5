import Verif.Props.EndToEnd
import Verif.Props.Item

/-
  A complete file, used to show that the theorems about files are not vacuous.
-/

namespace Olecf.Props
open Olecf.Spec

/-- A slot of the sample directory; names are padded to 64 bytes. -/
def mkSlot (name : Bytes) (type prev next sub start size : Nat) : SlotFields where
  name := name ++ List.replicate (64 - name.length) 0
  nameSize := name.length
  type := type
  color := 1
  prev := prev
  next := next
  sub := sub
  classId := List.replicate 16 0
  flags := 0
  created := 0
  modified := 0
  start := start
  size := size
  reserved := 0

/-- Root storage with storage `S`, which has the stream `A` of 70 bytes, with stream `B` of 3 bytes
  and with stream `C` of 600 bytes. -/
def sampleSlots : List SlotFields :=
  [mkSlot [82, 0, 0, 0] 5 0xffffffff 0xffffffff 1 3 192,
   mkSlot [83, 0, 0, 0] 1 0xffffffff 3 2 0xfffffffe 0,
   mkSlot [65, 0, 0, 0] 2 0xffffffff 0xffffffff 0xffffffff 0 70,
   mkSlot [66, 0, 0, 0] 2 0xffffffff 4 0xffffffff 1 3,
   mkSlot [67, 0, 0, 0] 2 0xffffffff 0xffffffff 0xffffffff 4 600,
   mkSlot [] 0 0 0 0 0 0, mkSlot [] 0 0 0 0 0 0, mkSlot [] 0 0 0 0 0 0]

/-- Streams of less than 100 bytes are stored in short sectors. -/
def sampleFileHeader : HeaderFields := { sampleHeader with minStreamSize := 100, minor := 0 }

def sampleSat : List Nat :=
  [0xfffffffd, 5, 0xfffffffe, 0xfffffffe, 6, 0xfffffffe, 0xfffffffe] ++
    List.replicate 121 0xffffffff

def sampleSsat : List Nat := [2, 0xfffffffe, 0xfffffffe] ++ List.replicate 125 0xffffffff

/-- The short stream container: short sector 0, 1, 2 and five unused ones. -/
def sampleContainer : Bytes :=
  List.replicate 64 1 ++ List.replicate 64 2 ++ List.replicate 64 3 ++ List.replicate 320 0

/-- The sectors: sector allocation table, first part of the directory, short sector allocation table,
  short stream container, first part of stream `C`, second part of the directory, second part of
  stream `C`.  Stream `A` uses the short sectors 0 and 2, stream `B` the short sector 1. -/
def sampleSectors (e : Endian) : List Bytes :=
  [enc32s e sampleSat, ((sampleSlots.take 4).map (encodeSlot e)).flatten, enc32s e sampleSsat,
   sampleContainer, List.replicate 512 7, ((sampleSlots.drop 4).map (encodeSlot e)).flatten,
   List.replicate 512 8]

def sampleFile (e : Endian) : Bytes :=
  encodeHeader e sampleFileHeader ++ (sampleSectors e).flatten

/-- The content of the sample file. -/
def sampleDoc : Doc :=
  .storage
    [([83, 0, 0, 0], .storage [([65, 0, 0, 0], .stream (List.replicate 64 1 ++ List.replicate 6 3))]),
     ([66, 0, 0, 0], .stream [2, 2, 2]),
     ([67, 0, 0, 0], .stream (List.replicate 512 7 ++ List.replicate 88 8))]

theorem sampleFileHeader_fits : sampleFileHeader.Fits :=
  { sampleHeader_fits with minStreamSize := by decide, minor := by decide }

theorem mkSlot_fits {name : Bytes} {type prev next sub start size : Nat} (h1 : name.length ≤ 64)
    (h2 : type < 2 ^ 8) (h3 : prev < 2 ^ 32) (h4 : next < 2 ^ 32) (h5 : sub < 2 ^ 32)
    (h6 : start < 2 ^ 32) (h7 : size < 2 ^ 32) : (mkSlot name type prev next sub start size).Fits := by
  constructor <;> simp [mkSlot] <;> omega

theorem sampleSlots_fit : ∀ s ∈ sampleSlots, s.Fits := by
  intro s hs
  simp only [sampleSlots, List.mem_cons, List.not_mem_nil, or_false] at hs
  rcases hs with rfl | rfl | rfl | rfl | rfl | rfl | rfl | rfl <;>
    exact mkSlot_fits (by decide) (by decide) (by decide) (by decide) (by decide) (by decide) (by decide)

theorem sampleSectors_length (e : Endian) : ∀ s ∈ sampleSectors e, s.length = 512 := by
  intro s hs
  have hslots : ∀ l : List SlotFields, (∀ x ∈ l, x ∈ sampleSlots) →
      (l.map (encodeSlot e)).flatten.length = l.length * 128 := by
    intro l hl
    rw [flatten_length (u := 128), List.length_map]
    intro x hx
    obtain ⟨f, hf, rfl⟩ := List.mem_map.1 hx
    exact encodeSlot_length (sampleSlots_fit f (hl f hf))
  simp only [sampleSectors, List.mem_cons, List.not_mem_nil, or_false] at hs
  rcases hs with rfl | rfl | rfl | rfl | rfl | rfl | rfl
  · rw [enc32s_length]; decide +kernel
  · rw [hslots _ (fun x hx => List.mem_of_mem_take hx)]; rfl
  · rw [enc32s_length]; decide +kernel
  · decide +kernel
  · exact List.length_replicate
  · rw [hslots _ (fun x hx => List.mem_of_mem_drop hx)]; rfl
  · exact List.length_replicate

/-- The sectors of a file that is a header followed by sectors. -/
theorem sector_of_blocks {hdr : Bytes} {secs : List Bytes} {ss : Nat} (hh : hdr.length = ss)
    (hs : ∀ s ∈ secs, s.length = ss) {i : Nat} {s : Bytes} (hi : secs[i]? = some s)
    (hn : i ≠ 0xffffffff) : sector (Dev.ofBytes (hdr ++ secs.flatten)) ss i = some s := by
  have h1 := flatten_drop_take hs i s hi
  have hsl := hs s (List.mem_of_getElem? hi)
  unfold sector Dev.get Dev.ofBytes sectorPos
  rw [if_neg hn]
  simp only []
  rw [List.drop_append, List.drop_eq_nil_of_le (by rw [hh, Nat.add_mul]; omega), List.nil_append, hh,
    show (i + 1) * ss - ss = ss * i by rw [Nat.add_mul, Nat.one_mul, Nat.mul_comm]; omega, h1,
    if_pos hsl]

theorem sample_sector (e : Endian) {i : Nat} {s : Bytes} (hi : (sampleSectors e)[i]? = some s) :
    sector (Dev.ofBytes (sampleFile e)) 512 i = some s := by
  refine sector_of_blocks (encodeHeader_length e _ sampleFileHeader_fits) (sampleSectors_length e) hi ?_
  have h7 : (sampleSectors e).length = 7 := rfl
  have := (List.getElem?_eq_some_iff.1 hi).1
  omega

theorem sample_layout (e : Endian) :
    Layout (sampleFile e) e sampleFileHeader sampleSat sampleSsat sampleSlots where
  fits := sampleFileHeader_fits
  sectorSize := by decide
  header := List.prefix_append _ _
  msatLimit := by decide
  satLimit := by decide
  ssatLimit := by decide
  hsat := by
    refine ⟨sampleFileHeader.msat, [enc32s e sampleSat], ⟨[], .done, rfl, by simp⟩, ?_, rfl, ?_⟩
    · have : sampleFileHeader.msat.filter (· ≠ 0xffffffff) = [0] := by decide
      rw [this]
      simp only [SectorsAre, List.map_cons, List.map_nil]
      rw [show 2 ^ sampleFileHeader.sectorExp = 512 from rfl, sample_sector e (i := 0) rfl]
    · rw [List.flatMap_singleton, words_enc32s e sampleSat (by decide +kernel)]
  hssat := by
    refine ⟨[2], [enc32s e sampleSsat], .cons rfl (.nil _), ?_, rfl, ?_⟩
    · simp only [SectorsAre, List.map_cons, List.map_nil]
      rw [show 2 ^ sampleFileHeader.sectorExp = 512 from rfl, sample_sector e (i := 2) rfl]
    · rw [List.flatMap_singleton, words_enc32s e sampleSsat (by decide +kernel)]
  directory := by
    refine ⟨[1, 5], [((sampleSlots.take 4).map (encodeSlot e)).flatten,
      ((sampleSlots.drop 4).map (encodeSlot e)).flatten], .cons (nxt := 5) rfl (.cons rfl (.nil _)),
      by simp, by simp, ?_, ?_⟩
    · simp only [SectorsAre, List.map_cons, List.map_nil]
      rw [show 2 ^ sampleFileHeader.sectorExp = 512 from rfl, sample_sector e (i := 1) rfl,
        sample_sector e (i := 5) rfl]
    · rw [List.flatten_cons, List.flatten_cons, List.flatten_nil, List.append_nil,
        ← List.flatten_append, ← List.map_append, List.take_append_drop]
  hslots := sampleSlots_fit

/-- The entries of the sample directory. -/
def sampleEntry (i : Nat) : DirEntry :=
  (sampleSlots.getD i (mkSlot [] 0 0 0 0 0 0)).entry i

theorem sample_entries : entriesOfSlots sampleSlots = [0, 1, 2, 3, 4].map sampleEntry := by rfl

theorem sample_links : GoodLinks (entriesOfSlots sampleSlots) (sampleEntry 0) := by
  rw [sample_entries]
  constructor
  · decide
  · rfl
  · decide
  · rfl
  · rfl
  · have : ∀ d ∈ [0, 1, 2, 3, 4].map sampleEntry, ∀ k ∈ [Link.sub, .prev, .next], linkId d k ≠ 0 := by
      decide
    exact fun d hd k => this d hd k (by cases k <;> decide)
  · have : ∀ d ∈ [0, 1, 2, 3, 4].map sampleEntry, ∀ k ∈ [Link.sub, .prev, .next],
        linkId d k ≠ 0xffffffff → ∃ c ∈ [0, 1, 2, 3, 4].map sampleEntry, c.id = linkId d k := by
      decide
    exact fun d hd k => this d hd k (by cases k <;> decide)
  · have : ∀ a ∈ [0, 1, 2, 3, 4].map sampleEntry, ∀ b ∈ [0, 1, 2, 3, 4].map sampleEntry,
        ∀ k ∈ [Link.sub, .prev, .next], ∀ l ∈ [Link.sub, .prev, .next], linkId a k = linkId b l →
        linkId a k ≠ 0xffffffff → a = b ∧ k = l := by
      decide
    exact fun a ha b hb k l => this a ha b hb k (by cases k <;> decide) l (by cases l <;> decide)

/-- The root entry of the sample file holds the sample document. -/
theorem sample_root_holds (e : Endian) : Holds (sampleFile e) sampleFileHeader sampleSat sampleSsat
    [sampleContainer].flatten (entriesOfSlots sampleSlots) (sampleEntry 0) sampleDoc := by
  have hA : Holds (sampleFile e) sampleFileHeader sampleSat sampleSsat [sampleContainer].flatten
      (entriesOfSlots sampleSlots) (sampleEntry 2)
      (.stream (List.replicate 64 1 ++ List.replicate 6 3)) := by
    refine .stream rfl rfl rfl (fun _ => ?_) (fun h => absurd h (by decide))
    exact ⟨[0, 2], 0xfffffffe, .cons (nxt := 2) rfl (.cons rfl (.nil _)), by decide, by decide +kernel,
      ⟨List.replicate 58 3, by decide +kernel⟩⟩
  have hB : Holds (sampleFile e) sampleFileHeader sampleSat sampleSsat [sampleContainer].flatten
      (entriesOfSlots sampleSlots) (sampleEntry 3) (.stream [2, 2, 2]) := by
    refine .stream rfl rfl rfl (fun _ => ?_) (fun h => absurd h (by decide))
    exact ⟨[1], 0xfffffffe, .cons rfl (.nil _), by decide, by decide +kernel,
      ⟨List.replicate 61 2, by decide +kernel⟩⟩
  have hC : Holds (sampleFile e) sampleFileHeader sampleSat sampleSsat [sampleContainer].flatten
      (entriesOfSlots sampleSlots) (sampleEntry 4)
      (.stream (List.replicate 512 7 ++ List.replicate 88 8)) := by
    refine .stream rfl rfl (by decide +kernel)
      (fun h => absurd h (by decide)) (fun _ => ?_)
    refine ⟨[4, 6], 0xfffffffe, [List.replicate 512 7, List.replicate 512 8],
      .cons (nxt := 6) rfl (.cons rfl (.nil _)), by decide, ?_, ⟨List.replicate 424 8, ?_⟩⟩
    · simp only [SectorsAre, List.map_cons, List.map_nil]
      rw [show 2 ^ sampleFileHeader.sectorExp = 512 from rfl, sample_sector e (i := 4) rfl,
        sample_sector e (i := 6) rfl]
    · decide +kernel
  have hmem : ∀ i ∈ [0, 1, 2, 3, 4], sampleEntry i ∈ entriesOfSlots sampleSlots := by
    intro i hi
    rw [sample_entries]
    exact List.mem_map_of_mem hi
  have hS : Holds (sampleFile e) sampleFileHeader sampleSat sampleSsat [sampleContainer].flatten
      (entriesOfSlots sampleSlots) (sampleEntry 1)
      (.storage [([65, 0, 0, 0], .stream (List.replicate 64 1 ++ List.replicate 6 3))]) := by
    refine .storage (es := [] ++ sampleEntry 2 :: []) (Or.inl rfl)
      (.node (hmem 2 (by decide)) (by decide) .none .none) rfl ?_ ?_
    · intro i c k hc hk
      match i with
      | 0 => cases hc; cases hk; rfl
      | _ + 1 => cases hc
    · intro i c k hc hk
      match i with
      | 0 => cases hc; cases hk; exact hA
      | _ + 1 => cases hc
  refine .storage (es := [] ++ sampleEntry 1 :: ([] ++ sampleEntry 3 :: ([] ++ sampleEntry 4 :: [])))
    (Or.inr rfl)
    (.node (hmem 1 (by decide)) (by decide) .none (.node (d := sampleEntry 3) (hmem 3 (by decide)) (by decide) .none
      (.node (d := sampleEntry 4) (hmem 4 (by decide)) (by decide) .none .none))) rfl ?_ ?_
  · intro i c k hc hk
    match i with
    | 0 => cases hc; cases hk; rfl
    | 1 => cases hc; cases hk; rfl
    | 2 => cases hc; cases hk; rfl
    | _ + 3 => cases hc
  · intro i c k hc hk
    match i with
    | 0 => cases hc; cases hk; exact hS
    | 1 => cases hc; cases hk; exact hB
    | 2 => cases hc; cases hk; exact hC
    | _ + 3 => cases hc

theorem sample_container (e : Endian) : SectorsAre (sampleFile e) (2 ^ sampleFileHeader.sectorExp) [3] [sampleContainer] := by
  simp only [SectorsAre, List.map_cons, List.map_nil]
  rw [show 2 ^ sampleFileHeader.sectorExp = 512 from rfl, sample_sector e (i := 3) rfl]

/-- The sample file holds the sample document. -/
theorem sampleFile_held (e : Endian) : HeldBy (sampleFile e) sampleFileHeader sampleSlots sampleDoc :=
  ⟨e, sampleSat, sampleSsat, sampleEntry 0, [3], 0xfffffffe, [sampleContainer], sample_layout e, sample_links, by decide,
    .cons rfl (.nil _), sample_container e, sample_root_holds e⟩

theorem sample_holds (e : Endian) : FileHolds (sampleFile e)
    [[82, 0, 0, 0], [83, 0, 0, 0], [65, 0, 0, 0], [66, 0, 0, 0], [67, 0, 0, 0]] sampleDoc :=
  ⟨sampleFileHeader, sampleSlots, sampleFile_held e, rfl⟩

/-- The names can be compared, whatever the comparison does. -/
theorem sample_comparable (cmp : Bytes → Bytes → Option Bool) :
    ∀ n ∈ [[82, 0, 0, 0], [83, 0, 0, 0], [65, 0, 0, 0], [66, 0, 0, 0], [67, 0, 0, 0]],
      Comparable cmp n := by
  intro n hn
  have : n.length = 4 := by
    simp only [List.mem_cons, List.not_mem_nil, or_false] at hn
    rcases hn with rfl | rfl | rfl | rfl | rfl <;> rfl
  exact ⟨fun h => by omega, fun h => by omega⟩

theorem sample_loaded : ∃ l, (openCore cmpNone (Dev.ofBytes (sampleFile .little)) .cleared).1.res = .ok l ∧
    l.tree.isSome := by
  obtain ⟨l, t, h1, h2, _⟩ := C47_load (sample_holds .little) cmpNone (sample_comparable _) .cleared
  exact ⟨l, h1, by rw [h2]; rfl⟩

end Olecf.Props
