import Verif.Props.FileLife

/-
  C35: handles; C04: the signature check.
-/

namespace Olecf.Props
open Olecf.Spec

/-! ### C35 -/

/-- Over every history the library opens a handle only if it does not owe a close of it, and closes a
  handle only if it opened it; it owes a close exactly for the handle of the open file if it opened
  it.  A handle the library made is freed exactly once, and exists only while the file is open. -/
theorem C35_handles_balanced (cmp : Bytes → Bytes → Option Bool) (st : FileState)
    (hst : Reachable cmp st) (h : HandleId) :
    owesClose h st.world.events =
      some (decide (st.file.handle = some h) && st.file.openedInLibrary) ∧
    existsAfter h st.world.events = some (match h with
      | .user _ => true
      | .lib n => decide (st.file.handle = some (.lib n))) :=
  ⟨(reachable_inv hst).owes h, (reachable_inv hst).exist h⟩

/-- While the file is closed (after a close, a failed open or before the first open) the library
  does not hold any handle: it owes no close, and no handle it made exists. -/
theorem C35_closed_holds_nothing (cmp : Bytes → Bytes → Option Bool) (st : FileState)
    (hst : Reachable cmp st) (hc : st.file.handle = none) :
    (∀ h, owesClose h st.world.events = some false) ∧
    ∀ n, existsAfter (.lib n) st.world.events = some false := by
  refine ⟨fun h => ?_, fun n => ?_⟩
  · rw [(C35_handles_balanced cmp st hst h).1, hc]; simp
  · rw [(C35_handles_balanced cmp st hst (.lib n)).2, hc]; simp

/-- While the file is open its handle is open. -/
theorem C35_open_file_has_open_handle (cmp : Bytes → Bytes → Option Bool) (st : FileState)
    (hst : Reachable cmp st) (h : HandleId) (hh : st.file.handle = some h) :
    st.world.isOpen h = true :=
  ((reachable_inv hst).isOpen h hh).1

/-- Freeing the file object, open or not, leaves no close owed and no handle of the library. -/
theorem C35_free (cmp : Bytes → Bytes → Option Bool) (st : FileState)
    (hst : Reachable cmp st) (flt : Faults) :
    (∀ h, owesClose h (freeFile flt st).2.events = some false) ∧
    ∀ n, existsAfter (.lib n) (freeFile flt st).2.events = some false := by
  cases hh : st.file.handle with
  | none =>
    have : (freeFile flt st).2 = st.world := by unfold freeFile; rw [hh]
    rw [this]
    exact C35_closed_holds_nothing cmp st hst hh
  | some k =>
    have : (freeFile flt st).2 = (closeFile flt st).2.world := by unfold freeFile; rw [hh]
    rw [this]
    obtain ⟨st0, ops, h0, rfl⟩ := hst
    refine C35_closed_holds_nothing cmp _ ⟨st0, ops ++ [.close flt], h0, ?_⟩ ?_
    · unfold runOps; rw [List.foldl_append]; rfl
    · rw [closeFile_eq hh]; rfl

theorem openName_user {cmp : Bytes → Bytes → Option Bool} {st : FileState} (hi : Inv st)
    (dev : Dev) (flags : Nat) (flt : Faults) (n : Nat) :
    (openName cmp dev flags flt st).2.world.isOpen (.user n) = st.world.isOpen (.user n) ∧
    (openName cmp dev flags flt st).2.world.dev (.user n) = st.world.dev (.user n) := by
  rw [openName_eq]
  have hi' : ({ file := st.file, world := (st.world.createH dev).2 } : FileState).file.handle = none →
      ({ file := st.file, world := (st.world.createH dev).2 } : FileState).file.Empty := hi.closed
  have hne : HandleId.user n ≠ .lib st.world.made := by simp
  have hb : (st.world.createH dev).2.isOpen (.user n) = st.world.isOpen (.user n) := by
    simp [World.createH]
  have hd : (st.world.createH dev).2.dev (.user n) = st.world.dev (.user n) := by
    simp [World.createH]
  have hf : ∀ w : World, (w.freeH (.lib st.world.made)).isOpen (.user n) = w.isOpen (.user n) ∧
      (w.freeH (.lib st.world.made)).dev = w.dev := by
    intro w; simp [World.freeH]
  have hen := ensureOpen_isOpen (st.world.createH dev).2 (.lib st.world.made)
  split
  · simp
  · split
    · simp only [(hf _).1, (hf _).2, hb, hd]; simp
    · simp only
      rcases openHandle_spec (cmp := cmp) (h := .lib st.world.made) (flags := flags) (flt := flt)
        (st := ⟨st.file, (st.world.createH dev).2⟩) hi' with
        ⟨hc, h1⟩ | ⟨⟨a, b, c, d⟩, ⟨l, hl, h1⟩ | ⟨hno, h1⟩⟩
      · rw [h1]
        simp only [reduceCtorEq, if_false, (hf _).1, (hf _).2, hb, hd]; simp
      · rw [h1]
        simp only [if_true, hen.2.2.2 _ hne, hen.2.2.1, hb, hd]; simp
      · rw [h1]
        rcases openCore_cases cmp ((st.world.createH dev).2.dev (.lib st.world.made)) st.file.io with
          ⟨l, hl⟩ | he
        · exact absurd hl (hno l)
        · simp only [he, Res.failed, reduceCtorEq, if_false, (hf _).1, (hf _).2]
          have ho : (st.world.createH dev).2.isOpen (.lib st.world.made) = false := by
            simp [World.createH]
          simp only [ho, Bool.false_eq_true, if_false]
          rw [(closeH_event _ _ _).2.2.1 _ hne, (closeH_event _ _ _).2.1, hen.2.2.2 _ hne, hen.2.2.1]
          exact ⟨hb, hd⟩

/-- Opening by name touches no handle of the caller. -/
theorem C35_open_name_leaves_callers_handles (cmp : Bytes → Bytes → Option Bool) (st : FileState)
    (hst : Reachable cmp st) (dev : Dev) (flags : Nat) (flt : Faults) (n : Nat) :
    (openName cmp dev flags flt st).2.world.isOpen (.user n) = st.world.isOpen (.user n) :=
  (openName_user (reachable_inv hst) dev flags flt n).1

/-- After a failed open every handle is as before; only if closing the handle failed too, the handle
  the library had to open stays open. -/
theorem C35_failed_open_restores (cmp : Bytes → Bytes → Option Bool) (st : FileState)
    (hst : Reachable cmp st) (h : HandleId) (flags : Nat) (flt : Faults) (hcl : flt.closing = false)
    (hf : (openHandle cmp h flags flt st).1 ≠ .ok ()) (k : HandleId) :
    (openHandle cmp h flags flt st).2.world.isOpen k = st.world.isOpen k := by
  have hi := reachable_inv hst
  revert hf
  rcases openHandle_spec (cmp := cmp) (h := h) (flags := flags) (flt := flt) hi.closed with
    ⟨hc, h1⟩ | ⟨⟨a, b, c, d⟩, ⟨l, hl, h1⟩ | ⟨hno, h1⟩⟩
  · rw [h1]; intro _; rfl
  · rw [h1]; intro hf; exact absurd rfl hf
  · rw [h1]; intro _
    simp only
    split
    · rfl
    · rename_i ho
      have hen := ensureOpen_isOpen st.world h
      by_cases hk : k = h
      · subst hk
        simp only [World.closeH, hcl, hen.1]
        simpa using ho
      · rw [(closeH_event _ _ _).2.2.1 _ hk, hen.2.2.2 _ hk]

/-- After a successful open and a close every handle of the caller is as before the open (unless
  closing the handle failed). -/
theorem C35_open_close_restores (cmp : Bytes → Bytes → Option Bool) (st : FileState)
    (hst : Reachable cmp st) (n : Nat) (flags : Nat) (flt flt' : Faults)
    (hcl : flt'.closing = false) (hok : (openHandle cmp (.user n) flags flt st).1 = .ok ()) (m : Nat) :
    (closeFile flt' (openHandle cmp (.user n) flags flt st).2).2.world.isOpen (.user m) =
      st.world.isOpen (.user m) := by
  have hi := reachable_inv hst
  revert hok
  rcases openHandle_spec (cmp := cmp) (h := .user n) (flags := flags) (flt := flt) hi.closed with
    ⟨hc, h1⟩ | ⟨⟨a, b, c, d⟩, ⟨l, hl, h1⟩ | ⟨hno, h1⟩⟩
  · rw [h1]; intro h; cases h
  · rw [h1]; intro _
    rw [closeFile_eq (h := .user n) rfl]
    have hen := ensureOpen_isOpen st.world (.user n)
    obtain ⟨_, _, _, _, _, e6⟩ := hi.closed a
    simp only [OleFile.loaded, e6]
    cases ho : st.world.isOpen (.user n)
    · simp only [Bool.not_false, if_true, Bool.false_eq_true, if_false]
      by_cases hk : HandleId.user m = .user n
      · rw [hk, ho]
        simp [World.closeH, hcl, hen.1]
      · rw [(closeH_event _ _ _).2.2.1 _ hk, hen.2.2.2 _ hk]
    · simp [World.ensureOpen, ho]
  · rw [h1]
    rcases openCore_cases cmp (st.world.dev (.user n)) st.file.io with ⟨l, hl⟩ | he
    · exact absurd hl (hno l)
    · simp [he, Res.failed]

/-- A handle the caller opened. -/
def CallersOpen (n : Nat) (st : FileState) : Prop :=
  st.world.isOpen (.user n) = true ∧
    ¬ (st.file.handle = some (.user n) ∧ st.file.openedInLibrary = true)

theorem callersOpen_run {cmp : Bytes → Bytes → Option Bool} {st : FileState} (hi : Inv st) {n : Nat}
    (h : CallersOpen n st) (op : FileOp) (hop : ∀ b d, op ≠ .caller n b d) :
    CallersOpen n (op.run cmp st).2 := by
  obtain ⟨ho, hn⟩ := h
  cases op with
  | openHandle k flags flt =>
    simp only [FileOp.run]
    rcases openHandle_spec (cmp := cmp) (h := .user k) (flags := flags) (flt := flt) hi.closed with
      ⟨hc, h1⟩ | ⟨⟨a, b, c, d⟩, ⟨l, hl, h1⟩ | ⟨hno, h1⟩⟩
    · rw [h1]; exact ⟨ho, hn⟩
    · rw [h1]
      have hen := ensureOpen_isOpen st.world (.user k)
      by_cases hk : n = k
      · subst hk
        exact ⟨hen.1, by simp [OleFile.loaded, ho]⟩
      · refine ⟨?_, by simp [OleFile.loaded, Ne.symm hk]⟩
        rw [hen.2.2.2 _ (by simpa using hk), ho]
    · rw [h1]
      refine ⟨?_, by simp [a]⟩
      simp only
      split
      · exact ho
      · rename_i hno
        have hk : n ≠ k := by rintro rfl; exact hno ho
        have hen := ensureOpen_isOpen st.world (.user k)
        rw [(closeH_event _ _ _).2.2.1 _ (by simpa using hk), hen.2.2.2 _ (by simpa using hk), ho]
  | openName dev flags flt =>
    refine ⟨by rw [FileOp.run, (openName_user hi dev flags flt n).1, ho], ?_⟩
    rintro ⟨hh, hol⟩
    have hi2 := inv_openName (cmp := cmp) (dev := dev) (flags := flags) (flt := flt) hi
    simp only [FileOp.run] at hh hol
    by_cases hopen : st.file.handle.isSome
    · rw [((C34_open_when_open cmp st hopen flags flt).2 dev).2.1] at hh hol
      exact hn ⟨hh, hol⟩
    · have hnone : st.file.handle = none := by simpa using hopen
      have hcr := (hi2.isOpen _ hh).2.1
      have : (openName cmp dev flags flt st).2.file.createdInLibrary = false := by
        cases hc : (openName cmp dev flags flt st).2.file.createdInLibrary with
        | false => rfl
        | true => obtain ⟨_, h⟩ := hcr.1 hc; cases h
      revert hh this
      rw [openName_eq]
      split
      · simp [hnone]
      · split
        · simp [hnone]
        · simp only
          split
          · simp
          · rename_i hr
            intro hh
            have hs := openHandle_handle (cmp := cmp) (st := ⟨st.file, (st.world.createH dev).2⟩)
            exfalso
            rcases openHandle_spec (cmp := cmp) (h := .lib st.world.made) (flags := flags) (flt := flt)
              (st := ⟨st.file, (st.world.createH dev).2⟩) hi.closed with
              ⟨hc, h1⟩ | ⟨⟨a, b, c, d⟩, ⟨l, hl, h1⟩ | ⟨hno, h1⟩⟩
            · rw [h1] at hh; simp [hnone] at hh
            · rw [h1] at hr; exact hr rfl
            · rw [h1] at hh; simp [hnone] at hh
  | close flt =>
    simp only [FileOp.run]
    cases hh : st.file.handle with
    | none => rw [C34_close_when_closed st hh]; exact ⟨ho, hn⟩
    | some k =>
      rw [closeFile_eq hh]
      refine ⟨?_, by simp [OleFile.new]⟩
      have hkc := (hi.isOpen k hh).2.1
      by_cases hk : k = .user n
      · subst hk
        have hol : st.file.openedInLibrary = false := by
          cases hol : st.file.openedInLibrary with
          | false => rfl
          | true => exact absurd ⟨hh, hol⟩ hn
        have hcl : st.file.createdInLibrary = false := by
          cases hol : st.file.createdInLibrary with
          | false => rfl
          | true => obtain ⟨_, h⟩ := hkc.1 hol; cases h
        simp [hol, hcl, ho]
      · have h1 : (if st.file.openedInLibrary = true then (st.world.closeH flt k).2 else st.world).isOpen
            (.user n) = true := by
          split
          · rw [(closeH_event _ _ _).2.2.1 _ (Ne.symm hk), ho]
          · exact ho
        simp only
        split
        · simp only [World.freeH, Ne.symm hk, if_false]; exact h1
        · exact h1
  | setCodepage cp =>
    simp only [FileOp.run, setCodepage]
    split <;> exact ⟨ho, hn⟩
  | signalAbort => exact ⟨ho, hn⟩
  | caller k b dev =>
    have hk : n ≠ k := by rintro rfl; exact hop b dev rfl
    simp only [FileOp.run]
    split
    · exact ⟨ho, hn⟩
    · exact ⟨by simp [hk, ho], hn⟩

/-- A handle the caller opened stays open whatever is done with the file object: the library does
  not close it. -/
theorem C35_callers_handle_stays_open (cmp : Bytes → Bytes → Option Bool) (st : FileState)
    (hst : Reachable cmp st) (n : Nat) (h : CallersOpen n st) (ops : List FileOp)
    (hops : ∀ op ∈ ops, ∀ b d, op ≠ .caller n b d) :
    (runOps cmp st ops).world.isOpen (.user n) = true := by
  have : ∀ (ops : List FileOp) (st : FileState), Inv st → CallersOpen n st →
      (∀ op ∈ ops, ∀ b d, op ≠ .caller n b d) → CallersOpen n (runOps cmp st ops) := by
    intro ops
    induction ops with
    | nil => intro st _ h _; exact h
    | cons op ops ih =>
      intro st hi h hops
      exact ih _ (inv_run hi op) (callersOpen_run hi h op (hops op (by simp)))
        (fun o ho => hops o (by simp [ho]))
  exact (this ops st (reachable_inv hst) h hops).1

/-! ### C04 -/

/-- The signature check of a file: 1 exactly if the first eight bytes are one of the two signatures,
  0 if the file has at least eight bytes and they are not, -1 if the handle cannot be asked, opened
  or closed, or eight bytes cannot be read. -/
theorem C04_check_signature (h : HandleId) (flt : Faults) (w : World) :
    (checkSignature h flt w).1 =
      if flt.isOpen = true ∨ (w.isOpen h = false ∧ (flt.opening = true ∨ flt.closing = true)) then .err
      else match (w.dev h).get 0 8 with
        | none => .err
        | some b => .ok (decide (b = signature ∨ b = signatureBeta)) := by
  have hs : fileSignature = signature := rfl
  have hb : betaFileSignature = signatureBeta := rfl
  unfold checkSignature
  have hdev : ∀ w' : World, w'.dev = w.dev → (w'.dev h).get 0 8 = (w.dev h).get 0 8 := by
    intro w' h'; rw [h']
  have e1 : (w.openH flt h).2.dev = w.dev := by unfold World.openH; split <;> rfl
  cases hio : flt.isOpen
  · cases ho : w.isOpen h
    · cases hop : flt.opening
      · have e2 : (w.openH flt h).1 = true := by simp [World.openH, hop]
        simp only [e1, e2, Bool.false_eq_true, if_false, Bool.not_false, if_true, Bool.not_true]
        cases hg : (w.dev h).get 0 8 with
        | none => simp
        | some sig =>
          have e3 : ((w.openH flt h).2.closeH flt h).1 = !flt.closing := by
            unfold World.closeH World.openH
            cases flt.closing <;> simp [hop]
          cases hcl : flt.closing <;> simp only [e3, hcl, hs, hb] <;> simp
          by_cases h1 : sig = signature
          · simp [h1]
          · by_cases h2 : sig = signatureBeta <;> simp [h1, h2]
      · have e2 : (w.openH flt h).1 = false := by simp [World.openH, hop]
        simp [e2]
    · simp only [Bool.false_eq_true, if_false, Bool.not_true, if_true]
      cases hg : (w.dev h).get 0 8 with
      | none => simp
      | some sig =>
        simp only [hs, hb]
        by_cases h1 : sig = signature
        · simp [h1]
        · by_cases h2 : sig = signatureBeta <;> simp [h1, h2]
  · simp

theorem get_ofBytes (f : Bytes) (n : Nat) :
    (Dev.ofBytes f).get 0 n = if n ≤ f.length then some (f.take n) else none := by
  unfold Dev.get Dev.ofBytes
  simp only [List.drop_zero, List.length_take]
  by_cases h : n ≤ f.length
  · rw [if_pos (by omega), if_pos h]
  · rw [if_neg (by omega), if_neg h]

/-- The check of a file with content `f`. -/
theorem C04_check_content (h : HandleId) (w : World) (f : Bytes) (hf : w.dev h = Dev.ofBytes f) :
    (checkSignature h {} w).1 =
      if f.length < 8 then .err
      else .ok (decide (f.take 8 = signature ∨ f.take 8 = signatureBeta)) := by
  rw [C04_check_signature, hf, get_ofBytes, if_neg (by simp)]
  by_cases h8 : f.length < 8
  · rw [if_pos h8, if_neg (by omega)]
  · rw [if_neg h8, if_pos (by omega)]

/-- The check leaves every handle as it was (unless closing the handle it opened failed). -/
theorem C04_handle_restored (h : HandleId) (flt : Faults) (w : World) (hcl : flt.closing = false)
    (k : HandleId) : (checkSignature h flt w).2.isOpen k = w.isOpen k := by
  unfold checkSignature
  cases hio : flt.isOpen
  · cases ho : w.isOpen h
    · have e : ∀ w' : World, (w'.isOpen h = false ∨ True) →
          (∀ k, k ≠ h → w'.isOpen k = w.isOpen k) → ∀ k, (w'.closeH flt h).2.isOpen k =
            if k = h then (false : Bool) else w.isOpen k := by
        intro w' _ hw k
        by_cases hk : k = h
        · subst hk
          cases hw' : w'.isOpen k <;> simp [World.closeH, hcl, hw']
        · rw [(closeH_event _ _ _).2.2.1 k hk, hw k hk, if_neg hk]
      have hfin : ∀ k, (if k = h then (false : Bool) else w.isOpen k) = w.isOpen k := by
        intro k
        split
        · rename_i hk; rw [hk, ho]
        · rfl
      have hw1 : ∀ k, k ≠ h → (w.openH flt h).2.isOpen k = w.isOpen k := by
        intro k hk
        unfold World.openH
        split
        · rfl
        · simp [hk]
      have hc1 := e _ (Or.inr trivial) hw1
      have hc2 : ∀ k, k ≠ h → ((w.openH flt h).2.closeH flt h).2.isOpen k = w.isOpen k := by
        intro k hk; rw [hc1, if_neg hk]
      have hc3 := e _ (Or.inr trivial) hc2
      simp only [Bool.false_eq_true, if_false, Bool.not_false, if_true]
      split
      · rw [hc1, hfin]
      · split
        · rw [hc1, hfin]
        · split
          · rw [hc3, hfin]
          · split
            · rw [hc1, hfin]
            · split <;> rw [hc1, hfin]
    · simp only [Bool.false_eq_true, if_false, Bool.not_true, if_true]
      split
      · rfl
      · split
        · rfl
        · split <;> rfl
  · rfl

/-- Every file that can be opened passes the check. -/
theorem C04_opened_passes (cmp : Bytes → Bytes → Option Bool) (io : IoHandle) (f : Bytes) (l : Loaded)
    (h : (openCore cmp (Dev.ofBytes f) io).1.res = .ok l) (k : HandleId) (w : World)
    (hw : w.dev k = Dev.ofBytes f) : (checkSignature k {} w).1 = .ok true := by
  obtain ⟨hdr, t0, list, tree, ho⟩ := (openCore_ok_iff
    (io' := (openCore cmp (Dev.ofBytes f) io).2)).1 ⟨h, rfl⟩
  have hh : ∃ h t, (headerRead (Dev.ofBytes f) ⟨List.replicate 109 0⟩).res = .ok (h, t) :=
    ⟨_, _, ho.hheader⟩
  rw [C01_file_header_acceptance] at hh
  obtain ⟨hlen, hsig, _⟩ := hh
  rw [C04_check_content k w f hw]
  have : 512 ≤ f.length := by
    simp only [List.length_take] at hlen; omega
  rw [if_neg (by omega)]
  have hpre : ∀ s : Bytes, s.length = 8 → s <+: f.take 512 → f.take 8 = s := by
    rintro s hs ⟨r, hr⟩
    have h8 : f.take 8 = (f.take 512).take 8 := by rw [List.take_take, Nat.min_eq_left (by omega)]
    rw [h8, ← hr, ← hs, List.take_left]
  rcases hsig with h | h
  · simp [hpre _ rfl h]
  · simp [hpre _ rfl h]

/-- The check touches only its handle. -/
theorem checkSignature_frame (h : HandleId) (flt : Faults) (w : World) (k : HandleId) (hk : k ≠ h) :
    (checkSignature h flt w).2.isOpen k = w.isOpen k := by
  have h1 : (w.openH flt h).2.isOpen k = w.isOpen k := by
    unfold World.openH
    split
    · rfl
    · simp [hk]
  have h2 : ((w.openH flt h).2.closeH flt h).2.isOpen k = w.isOpen k := by
    rw [(closeH_event _ _ _).2.2.1 k hk, h1]
  have h3 : (((w.openH flt h).2.closeH flt h).2.closeH flt h).2.isOpen k = w.isOpen k := by
    rw [(closeH_event _ _ _).2.2.1 k hk, h2]
  unfold checkSignature
  split
  · rfl
  · cases w.isOpen h
    · simp only [Bool.false_eq_true, if_false, Bool.not_false, if_true]
      split
      · exact h2
      · split
        · exact h2
        · split
          · exact h3
          · split
            · exact h2
            · split <;> exact h2
    · simp only [Bool.not_true, Bool.false_eq_true, if_false, if_true]
      split
      · rfl
      · split
        · rfl
        · split <;> rfl

/-- The check by name: the outcome of the check of a new handle; afterwards the handles of the caller
  are as before, and the new handle is gone. -/
theorem C04_check_name (dev : Dev) (flt : Faults) (w : World) :
    (checkSignatureName dev flt w).1 =
      (if flt.create = true ∨ flt.setName = true ∨ flt.isOpen = true ∨ flt.opening = true ∨
          flt.closing = true ∨ flt.free = true then .err
      else match dev.get 0 8 with
        | none => .err
        | some b => .ok (decide (b = signature ∨ b = signatureBeta))) ∧
    (∀ n, (checkSignatureName dev flt w).2.isOpen (.user n) = w.isOpen (.user n)) ∧
    (checkSignatureName dev flt w).2.isOpen (.lib w.made) = (w.isOpen (.lib w.made) && flt.create) := by
  have hdev : (w.createH dev).2.dev (.lib w.made) = dev := by simp [World.createH]
  have hop : (w.createH dev).2.isOpen (.lib w.made) = false := by simp [World.createH]
  have hus : ∀ n, (w.createH dev).2.isOpen (.user n) = w.isOpen (.user n) := by
    intro n; simp [World.createH]
  have hfst : w.createH dev = (.lib w.made, (w.createH dev).2) := rfl
  have hc := C04_check_signature (.lib w.made) flt (w.createH dev).2
  have hfr : ∀ w' : World, (w'.freeH (.lib w.made)).isOpen (.lib w.made) = false ∧
      ∀ n, (w'.freeH (.lib w.made)).isOpen (.user n) = w'.isOpen (.user n) := by
    intro w'; simp [World.freeH]
  have huc : ∀ n, (checkSignature (.lib w.made) flt (w.createH dev).2).2.isOpen (.user n) =
      w.isOpen (.user n) := by
    intro n
    rw [checkSignature_frame (.lib w.made) flt _ _ (by simp), hus]
  rw [hdev, hop] at hc
  unfold checkSignatureName
  rw [hfst]
  simp only []
  revert hc huc
  generalize checkSignature (.lib w.made) flt (w.createH dev).2 = r
  obtain ⟨r, w'⟩ := r
  intro hc huc
  simp only at hc huc
  subst hc
  cases flt.create <;> cases flt.setName <;> cases flt.isOpen <;> cases flt.opening <;>
    cases flt.closing <;> cases flt.free <;> cases dev.get 0 8 <;>
    simp [hfr, huc, hus, Res.failed]

end Olecf.Props
