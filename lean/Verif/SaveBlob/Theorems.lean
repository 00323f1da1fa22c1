import Verif.SaveBlob.Model
import Verif.SaveBlob.Spec
import Verif.Blob.Theorems
import Verif.Value.UsersTheorems
import Verif.Value.StorageTheorems
import Verif.Handle.Theorems
import Verif.Format.Findings
import Verif.Export.Theorems

/-!
# Saving the value of a field to a file (property C100)
-/

namespace Verif.SaveBlob
open Verif Verif.Handle Verif.Format Verif.Unicode.Spec Verif.Format.Spec Verif.Value.Spec Verif.SaveBlob.Spec

/-! ## The file -/

theorem writeFile_ok (d : Disk) (b : Bytes) (h : d.rw = true) : writeFile d b = .ok ⟨some b, true⟩ := by
  unfold writeFile create copyAll
  rw [if_pos h]
  by_cases hb : b = []
  · subst hb; simp [attach, destroy, close]
  · simp [hb, write, attach, reopen, Stream.overlay, Stream.resizeB, destroy, close]

theorem writeBuffer_ok (d : Disk) (b : Bytes) (h : d.rw = true) : writeBuffer d b = .ok ⟨some b, true⟩ := by
  unfold writeBuffer create
  rw [if_pos h]
  simp [write, attach, reopen, Stream.overlay, Stream.resizeB, destroy, close]

/-- Where no file can be made nothing is written, and nothing is reported. -/
theorem writeFile_not (d : Disk) (b : Bytes) (h : canOpen d = false ∧ d.rw = false) : writeFile d b = .ok d := by
  unfold writeFile create copyAll
  rw [if_neg (by simp [h.2])]
  by_cases hb : b = []
  · subst hb; simp [attach, destroy, close]
  · simp [hb, write, attach, reopen, h.1, destroy, close]

theorem writeBuffer_not (d : Disk) (b : Bytes) (h : canOpen d = false ∧ d.rw = false) : writeBuffer d b = .ok d := by
  unfold writeBuffer create
  rw [if_neg (by simp [h.2])]
  simp [write, attach, reopen, h.1, destroy, close]

/-! ## Names -/

theorem equal_word (n : List Nat) (hn : Name n) (w : String) (hw : ∀ c ∈ w.toList.map Char.toNat, 0 < c ∧ c < 128) :
    (SameText n (cps w) → Unicode.equalIC (utf8Text n) (Cli.asc w) = .ok true) ∧
    (¬ SameText n (cps w) → Unicode.equalIC (utf8Text n) (Cli.asc w) = .ok false) := by
  rw [asc_utf8 w (fun c hc => (hw c hc).2)]
  have := Unicode.equalIC_iff n (w.toList.map Char.toNat) hn (name_ascii w hw)
  exact ⟨this.1.2, this.2.2⟩

theorem equal_word_or (n : List Nat) (hn : Name n) (w : String) (hw : ∀ c ∈ w.toList.map Char.toNat, 0 < c ∧ c < 128) :
    ∃ r : Bool, Unicode.equalIC (utf8Text n) (Cli.asc w) = .ok r ∧ (r = true ↔ SameText n (cps w)) := by
  obtain ⟨h1, h2⟩ := equal_word n hn w hw
  by_cases h : SameText n (cps w)
  · exact ⟨true, h1 h, by simp [h]⟩
  · exact ⟨false, h2 h, by simp [h]⟩

theorem sameText_len : ∀ {a b : List Nat}, SameText a b → a.length = b.length
  | [], [], _ => rfl
  | _ :: _, _ :: _, h => by simp [sameText_len h.2]

theorem isUsers_spec (table first : List Nat) (ht : Name table) (hf : Name first) :
    ∃ r : Bool, isUsers (utf8Text table) (.ok (utf8Text first)) = .ok r ∧ (r = true ↔ UsersRow table first) := by
  obtain ⟨r1, e1, h1⟩ := equal_word_or table ht "PARAMS" (by decide)
  obtain ⟨r2, e2, h2⟩ := equal_word_or first hf "users.usr" (by decide)
  obtain ⟨r3, e3, h3⟩ := equal_word_or table ht "V8USERS" (by decide)
  unfold isUsers UsersRow
  rw [e1, Outcome.ok_bind]
  cases r1 with
  | true =>
    simp only [if_true, Outcome.ok_bind]
    rw [e2]
    refine ⟨r2, rfl, ?_⟩
    have hs := h1.1 rfl
    have hno : ¬ SameText table (cps "V8USERS") := by
      intro h
      have a := sameText_len hs
      have b := sameText_len h
      rw [a] at b
      exact absurd b (by decide)
    simp [hs, hno, h2]
  | false =>
    have hs : ¬ SameText table (cps "PARAMS") := fun h => by have := h1.2 h; cases this
    simp only [Bool.false_eq_true, if_false]
    rw [e3]
    exact ⟨r3, rfl, by simp [hs, h3]⟩

theorem isConfig_spec (table : List Nat) (ht : Name table) :
    ∃ r : Bool, isConfig (utf8Text table) = .ok r ∧ (r = true ↔ SameText table (cps "CONFIG") ∨ SameText table (cps "CONFIGSAVE")) := by
  obtain ⟨r1, e1, h1⟩ := equal_word_or table ht "CONFIG" (by decide)
  obtain ⟨r2, e2, h2⟩ := equal_word_or table ht "CONFIGSAVE" (by decide)
  unfold isConfig
  rw [e1, Outcome.ok_bind]
  cases r1 with
  | true => exact ⟨true, rfl, by simp [h1.1 rfl]⟩
  | false =>
    have hs : ¬ SameText table (cps "CONFIG") := fun h => by have := h1.2 h; cases this
    simp only [Bool.false_eq_true, if_false]
    rw [e2]
    exact ⟨r2, rfl, by simp [hs, h2]⟩

theorem maybeTwice_spec (table first : List Nat) (ht : Name table) :
    ∃ r : Bool, maybeTwice (utf8Text table) (.ok (utf8Text first)) = .ok r ∧ (r = true ↔ Twice table first) := by
  obtain ⟨r, e, h⟩ := isConfig_spec table ht
  unfold maybeTwice Twice
  rw [e, Outcome.ok_bind]
  cases r with
  | true =>
    simp only [if_true, Outcome.ok_bind]
    exact ⟨_, rfl, by simp [h.1 rfl]⟩
  | false =>
    have hs : ¬ (SameText table (cps "CONFIG") ∨ SameText table (cps "CONFIGSAVE")) := fun h' => by have := h.2 h'; cases this
    simp only [Bool.false_eq_true, if_false]
    exact ⟨_, rfl, by simp [hs]⟩

/-! ## The value -/

theorem holding_read {f : Bytes} {start length : Nat} {b : Bytes} (h : Holding f start length b) (fuel : Nat) (hf : f.length / 256 ≤ fuel)
    (hl : length < 2 ^ 32) : Blob.readBlobTable (some f) fuel start length = .ok (some b) ∧ start ≠ 0 ∧ length ≠ 0 := by
  obtain ⟨hlen, hb, rfl, s, hr, e, he, rfl, rfl⟩ := h
  refine ⟨(Blob.read_back_partial f s hr hlen e he fuel hf hl).2.2.1, ?_, by simpa using hb⟩
  obtain ⟨A, _, _, _, _, _, hbl, _⟩ := hr.ex
  exact (hbl e he).1

theorem saveBlob_read {z : Unzip} {fuel depth : Nat} {d : Disk} {system : Bool} {name f : Bytes} {first : Outcome Bytes} {start length : Nat} {b : Bytes} {up : Bool}
    (h : Holding f start length b) (hf : f.length / 256 ≤ fuel) (hl : length < 2 ^ 32) :
    saveBlob z fuel depth d ⟨system, name, some f⟩ first ⟨false, start, length⟩ up =
      if !up then (do let d ← writeBuffer d b; .ok (some (true, d)))
      else if system then (do
        match ← saveSystem z fuel depth d name first b with
        | none => .ok none
        | some d => .ok (some (true, d)))
      else (do
        let x ← Value.exportValue (inflateOf z) b
        let d ← writeFile d x
        .ok (some (true, d))) := by
  obtain ⟨hr, h0, h1⟩ := holding_read h fuel hf hl
  have hb : ¬ b.length = 0 := by simpa using h.2.1
  unfold saveBlob
  simp only [Bool.false_eq_true, if_false]
  rw [if_neg (by simp [h0, h1]), hr]
  simp only [Outcome.ok_bind, if_neg hb]
  rfl

/-- **C100a.** A value that is null or empty is not saved: the result is false and the disk is as before. -/
theorem nothing_saved (z : Unzip) (fuel depth : Nat) (d : Disk) (t : Tab) (first : Outcome Bytes) (c : Cell) (up : Bool)
    (h : c.null = true ∨ c.start = 0 ∨ c.length = 0) : saveBlob z fuel depth d t first c up = .ok (some (false, d)) := by
  unfold saveBlob
  by_cases hn : c.null = true
  · rw [if_pos hn]
  · rw [if_neg hn, if_pos (by rcases h with h | h | h <;> simp_all)]

/-- **C100b.** Without unpacking the file is exactly the blob, of any size, whatever there was in the file. -/
theorem raw_saved (z : Unzip) (fuel depth : Nat) (d : Disk) (hd : d.rw = true) (system : Bool) (name f : Bytes) (first : Outcome Bytes) (start length : Nat)
    (b : Bytes) (h : Holding f start length b) (hf : f.length / 256 ≤ fuel) (hl : length < 2 ^ 32) :
    saveBlob z fuel depth d ⟨system, name, some f⟩ first ⟨false, start, length⟩ false = .ok (some (true, ⟨some b, true⟩)) := by
  rw [saveBlob_read h hf hl]
  simp only [Bool.not_false, if_true]
  rw [writeBuffer_ok d b hd]
  rfl

theorem saveUnpacked_plain {z : Unzip} {fuel depth : Nat} {d : Disk} {twice : Bool} {b x : Bytes} (hd : Decoded z twice b x)
    (hx : x ≠ []) (hn : Container.isCatalog x = .ok false) :
    saveUnpacked z fuel depth d twice b = (do let d ← writeFile d x; .ok (some d)) := by
  obtain ⟨zipped, hu⟩ := unpack_decoded hd
  unfold saveUnpacked
  rw [hu, Outcome.ok_bind]
  simp only
  unfold Container.openCatalog
  simp only
  rw [if_neg (by simpa using hx), hn]
  rfl

/-- **C100c.** With unpacking the file is exactly the content of the value, whatever there was in the file. Missing: values of more than 10 MiB (they
go through temporary files), containers (`container_undefined`), compressed values of no bytes (`empty_saved_as_container`). -/
theorem content_saved_partial (z : Unzip) (fuel depth : Nat) (d : Disk) (hd : d.rw = true) (system : Bool) (table first : List Nat)
    (ht : Name table) (hfi : Name first) (f : Bytes) (start length : Nat) (b x : Bytes) (h : Holding f start length b) (hf : f.length / 256 ≤ fuel)
    (hl : length ≤ 10 * 2 ^ 20) (hc : Content z system table first b x) :
    saveBlob z fuel depth d ⟨system, utf8Text table, some f⟩ (.ok (utf8Text first)) ⟨false, start, length⟩ true =
      .ok (some (true, ⟨some x, true⟩)) := by
  rw [saveBlob_read h hf (by omega)]
  simp only [Bool.not_true, Bool.false_eq_true, if_false]
  obtain ⟨u, eu, hu⟩ := isUsers_spec table first ht hfi
  obtain ⟨t, et, htw⟩ := maybeTwice_spec table first ht
  cases hc with
  | users key data hs hr hk hkl =>
    subst hs
    simp only [if_true, saveSystem]
    rw [eu, et, hu.2 hr]
    simp only [Outcome.ok_bind, if_true]
    rw [Value.unmask_partial key x hk hkl, Outcome.ok_bind, writeBuffer_ok d x hd]
    rfl
  | plain twice hs hr htw' hdec hx hn =>
    subst hs
    have hu' : u = false := by cases u with
      | true => exact absurd (hu.1 rfl) hr
      | false => rfl
    have ht' : t = twice := by
      rw [Bool.eq_iff_iff, htw, htw']
    simp only [if_true, saveSystem]
    rw [eu, et, hu', ht']
    simp only [Outcome.ok_bind, Bool.false_eq_true, if_false]
    rw [saveUnpacked_plain hdec hx hn, writeFile_ok d x hd]
    rfl
  | value head mark x tail hs hm hx hh hxl hst =>
    subst hs
    simp only [Bool.false_eq_true, if_false]
    have he := Value.export_content_partial (inflateOf z) head mark x tail b hm hx hh hxl hst
    rw [he, Outcome.ok_bind, writeFile_ok d x hd]
    rfl
  | other hs ho =>
    subst hs
    simp only [Bool.false_eq_true, if_false]
    rw [Value.export_plain (inflateOf z) b ho, Outcome.ok_bind, writeFile_ok d b hd]
    rfl

/-- **C100d.** In particular the texts of the system tables (at most 10 MiB; in UTF-16 without a header 65310 bytes) are saved as they are. -/
theorem text_saved (z : Unzip) (fuel depth : Nat) (d : Disk) (hd : d.rw = true) (table first : List Nat)
    (ht : Name table) (hfi : Name first) (f : Bytes) (start length : Nat) (b x t : Bytes) (h : Holding f start length b) (hf : f.length / 256 ≤ fuel)
    (hl : length ≤ 10 * 2 ^ 20) (hu : ¬ UsersRow table first) (twice : Bool) (htw : twice = true ↔ Twice table first) (hdec : Decoded z twice b x)
    (hs : Stored x t) (hxl : x.length ≤ 10 * 2 ^ 20) (h16 : mark16 <+: x → x.length ≤ 65310) :
    saveBlob z fuel depth d ⟨true, utf8Text table, some f⟩ (.ok (utf8Text first)) ⟨false, start, length⟩ true =
      .ok (some (true, ⟨some x, true⟩)) :=
  content_saved_partial z fuel depth d hd true table first ht hfi f start length b x h hf hl
    (.plain twice rfl hu htw hdec (stored_ne hs) (text_no_container hs hxl h16))

/-! ## Findings -/

/-- **C100, finding.** Where the file cannot be made, the value is reported as saved, and nothing is written. -/
theorem unwritable_reported_saved (z : Unzip) (fuel depth : Nat) (d : Disk) (hd : canOpen d = false ∧ d.rw = false) (system : Bool) (name f : Bytes)
    (first : Outcome Bytes) (start length : Nat) (b : Bytes) (h : Holding f start length b) (hf : f.length / 256 ≤ fuel) (hl : length < 2 ^ 32) :
    saveBlob z fuel depth d ⟨system, name, some f⟩ first ⟨false, start, length⟩ false = .ok (some (true, d)) := by
  rw [saveBlob_read h hf hl]
  simp only [Bool.not_false, if_true]
  rw [writeBuffer_not d b hd]
  rfl

/-- A value of a system table that is not the list of users goes through `saveUnpacked`. -/
theorem saveSystem_other {z : Unzip} {fuel depth : Nat} {d : Disk} {table first : List Nat} (ht : Name table) (hfi : Name first)
    (hu : ¬ UsersRow table first) {twice : Bool} (htw : twice = true ↔ Twice table first) (b : Bytes) :
    saveSystem z fuel depth d (utf8Text table) (.ok (utf8Text first)) b = saveUnpacked z fuel depth d twice b := by
  obtain ⟨u, eu, hu'⟩ := isUsers_spec table first ht hfi
  obtain ⟨t, et, htw'⟩ := maybeTwice_spec table first ht
  have h1 : u = false := by cases u with
    | true => exact absurd (hu'.1 rfl) hu
    | false => rfl
  have h2 : t = twice := by rw [Bool.eq_iff_iff, htw, htw']
  unfold saveSystem
  rw [eu, et, h1, h2]
  simp only [Outcome.ok_bind, Bool.false_eq_true, if_false]

/-- **C100, finding.** A compressed value of no bytes is saved as the 16 bytes of a container without entries. -/
theorem empty_saved_as_container (z : Unzip) (fuel depth : Nat) (d : Disk) (hd : d.rw = true) (table first : List Nat)
    (ht : Name table) (hfi : Name first) (f : Bytes) (start length : Nat) (b : Bytes) (h : Holding f start length b) (hf : f.length / 256 ≤ fuel)
    (hl : length < 2 ^ 32) (hu : ¬ UsersRow table first) (twice : Bool) (htw : twice = true ↔ Twice table first) (hdec : Decoded z twice b []) :
    saveBlob z fuel depth d ⟨true, utf8Text table, some f⟩ (.ok (utf8Text first)) ⟨false, start, length⟩ true =
      .ok (some (true, ⟨some [0xff, 0xff, 0xff, 0x7f, 0, 2, 0, 0, 0, 0, 0, 0, 0, 0, 0, 0], true⟩)) := by
  rw [saveBlob_read h hf hl]
  simp only [Bool.not_true, Bool.false_eq_true, if_false, if_true]
  rw [saveSystem_other ht hfi hu htw]
  obtain ⟨zipped, e⟩ := unpack_decoded hdec
  unfold saveUnpacked
  rw [e, Outcome.ok_bind]
  simp only
  have ho : Container.openCatalog fuel [] = .ok (some (.container ⟨⟨⟨Container.template, 16⟩, 0x7fffffff, 512, false, false⟩, 0, [], [], false, 0⟩)) := by
    rfl
  rw [ho]
  simp only [Outcome.ok_bind, if_true]
  rw [writeFile_ok d _ hd]
  rfl

/-- **C100, finding.** In every table but those of the configuration a value that was compressed once, and can be taken for a compressed one itself, is
inflated twice: what is saved is not the value. -/
theorem inflated_twice (z : Unzip) (fuel depth : Nat) (d : Disk) (hd : d.rw = true) (table first : List Nat)
    (ht : Name table) (hfi : Name first) (f : Bytes) (start length : Nat) (b x y : Bytes) (h : Holding f start length b) (hf : f.length / 256 ≤ fuel)
    (hl : length < 2 ^ 32) (hu : ¬ UsersRow table first) (hc : ¬ SameText table (cps "CONFIG")) (hs : ¬ SameText table (cps "CONFIGSAVE"))
    (h1 : z b = .ok x) (h2 : z x = .ok y) (hy : y ≠ []) (hn : Container.isCatalog y = .ok false) :
    saveBlob z fuel depth d ⟨true, utf8Text table, some f⟩ (.ok (utf8Text first)) ⟨false, start, length⟩ true =
      .ok (some (true, ⟨some y, true⟩)) := by
  rw [saveBlob_read h hf hl]
  simp only [Bool.not_true, Bool.false_eq_true, if_false, if_true]
  rw [saveSystem_other (twice := true) ht hfi hu (by simp [Twice, hc, hs]), saveUnpacked_plain (.both h1 h2) hy hn, writeFile_ok d y hd]
  rfl

/-- **C100, finding.** A value that is a container, made and written by this program (any history), whose first entry is no container: saving it
is undefined. -/
theorem container_undefined (z : Unzip) (fuel depth : Nat) (hfu : Container.LAST ≤ fuel) (d : Disk) (table first : List Nat)
    (ht : Name table) (hfi : Name first) (f : Bytes) (start length : Nat) (b : Bytes) (h : Holding f start length b) (hf : f.length / 256 ≤ fuel)
    (hl : length < 2 ^ 32) (hu : ¬ UsersRow table first) (twice zipped : Bool) (htw : twice = true ↔ Twice table first)
    (ops : List Container.Spec.UserOp) (k : Container.Catalog)
    (hlw : Container.Allowed (codec z zipped) fuel Container.blankCatalog (ops ++ [.flush]))
    (hk : Container.session (codec z zipped) fuel Container.blankCatalog (ops ++ [.flush]) = .ok (some k))
    (hun : unpack z twice b = .ok (k.cat.data.data, zipped)) (n : List Nat) (v : Bytes) (rest : List (List Nat × Bytes))
    (hm : ops.foldl Container.Spec.after [] = (n, v) :: rest) (hv : Container.isCatalog v = .ok false) :
    saveBlob z fuel (depth + 2) d ⟨true, utf8Text table, some f⟩ (.ok (utf8Text first)) ⟨false, start, length⟩ true = .ub := by
  rw [saveBlob_read h hf hl]
  simp only [Bool.not_true, Bool.false_eq_true, if_false, if_true]
  rw [saveSystem_other ht hfi hu htw]
  obtain ⟨k1, s, ls, e, hi, hcl, hfm, hem, hx, hs⟩ := flushed_session fuel hfu ops hlw
  rw [hk] at e
  cases e
  obtain ⟨k', ls', ho, hi', hs', _, hx'⟩ := Container.open_ok hi hcl hfm hem hx fuel hfu
  rw [hs, hm] at hs'
  match ls', hs', hi' with
  | (e, nv) :: ls', hs', hi' =>
    simp only [List.map_cons, List.cons.injEq] at hs'
    obtain ⟨rfl, _⟩ := hs'
    have hne : k'.ents ≠ [] := by rw [hi'.core.ents]; simp
    unfold saveUnpacked
    rw [hun, Outcome.ok_bind]
    simp only
    rw [ho, Outcome.ok_bind]
    simp only [if_neg hne]
    rw [save_dir_undefined hi' (by omega) hv fuel depth hfu]
    rfl

/-! ## The blobs of a table -/

theorem records_keep {R : Type} (P : Export.Blobs → Prop) {lower : Str → Str} {acc : Export.Access R} {keys cols : List Export.Column} {toFile mkdir : Bool} {images : Int}
    (hname : ∀ b n r, P b → P { b with recname := n, repeats := r })
    (hcell : ∀ b n, P b → P { b with made := true, dir := b.dir ++ [n], saved := b.saved ++ [b.dir ++ [n]] }) :
    ∀ {rs : List R} {b : Export.Blobs} {x : Str × Export.Blobs}, Export.records lower acc keys cols toFile mkdir images rs b = .ok x → P b → P x.2 := by
  have hblob : ∀ {r : R} {c : Export.Column} {b : Export.Blobs} {x : Option Str × Export.Blobs}, Export.blobCell acc images mkdir r c b = .ok x → P b → P x.2 := by
    intro r c b x h hb
    unfold Export.blobCell at h
    split at h
    · dsimp only at h
      obtain ⟨v, _, h⟩ := bind_inv h
      cases h
      exact hcell _ _ hb
    · cases h; exact hb
  have hcells : ∀ {r : R} {cols : List Export.Column} {b : Export.Blobs} {x : Str × Export.Blobs},
      Export.cells acc toFile mkdir images r cols b = .ok x → P b → P x.2 := by
    intro r cols
    induction cols with
    | nil => intro b x h hb; cases h; exact hb
    | cons c cols ih =>
      intro b x h hb
      rw [Export.cells] at h
      obtain ⟨y, h1, h⟩ := bind_inv h
      obtain ⟨w, h2, h⟩ := bind_inv h
      cases h
      refine ih (x := w) h2 ?_
      unfold Export.cell at h1
      split at h1
      · obtain ⟨v, h3, h1⟩ := bind_inv h1
        cases h1
        exact hblob h3 hb
      · obtain ⟨v, _, h1⟩ := bind_inv h1
        cases h1
        exact hb
  intro rs
  induction rs with
  | nil => intro b x h hb; cases h; exact hb
  | cons r rs ih =>
    intro b x h hb
    rw [Export.records] at h
    obtain ⟨b1, h1, h⟩ := bind_inv h
    obtain ⟨y, h2, h⟩ := bind_inv h
    obtain ⟨w, h3, h⟩ := bind_inv h
    cases h
    refine ih (x := w) h3 (hcells h2 ?_)
    unfold Export.nameRecord at h1
    split at h1
    · obtain ⟨t, _, h1⟩ := bind_inv h1
      cases h1
      split
      · exact hname b b.recname _ hb
      · exact hname b _ _ hb
    · cases h1; exact hb

/-- The blobs of a table are to be saved below the directory of the document. -/
theorem blobs_below {R : Type} (lower : Str → Str) (acc : Export.Access R) (get : Nat → R) (table : Str) (cols keys : List Export.Column) (idxs : List Export.Idx)
    (found : List Nat) (toFile mkdir : Bool) (junk : Int) (file : Str) (doc : Str) (saved : List (List Str))
    (h : Export.exportXml lower acc get table cols keys idxs found toFile mkdir junk file = .ok (doc, saved)) :
    ∀ p ∈ saved, [file ++ ".blob".toList] <+: p ∧ 1 < p.length := by
  unfold Export.exportXml at h
  dsimp only at h
  obtain ⟨x, h1, h⟩ := bind_inv h
  cases h
  have := records_keep (fun b => (∀ p ∈ b.saved, [file ++ ".blob".toList] <+: p ∧ 1 < p.length) ∧ [file ++ ".blob".toList] <+: b.dir)
    (fun b n r hb => hb) (fun b n hb => by
      have hp : [file ++ ".blob".toList] <+: b.dir ++ [n] := hb.2.trans (List.prefix_append _ _)
      refine ⟨?_, hp⟩
      intro p hp'
      rcases List.mem_append.1 hp' with hp' | hp'
      · exact hb.1 p hp'
      · rw [List.mem_singleton] at hp'
        subst hp'
        refine ⟨hp, ?_⟩
        have := hb.2.length_le
        simp at this ⊢
        omega) h1 ⟨by simp, List.prefix_refl _⟩
  exact this.1

/-- The tree below a directory has no directories, and files only at one path. -/
def Flat (dir p0 : List Str) (t : Tree) : Prop := ∀ p, dir <+: p → p ≠ dir → p ≠ p0 → t p = none

theorem write_flat {dir p0 : List Str} {t : Tree} {p : List Str} {b : Bytes} (h : Flat dir p0 t) (hp0 : t p0 ≠ some .dir)
    (hp : p = p0 ∨ (p0 <+: p ∧ p0.length < p.length)) (hd : dir <+: p0 ∧ dir.length < p0.length) :
    Flat dir p0 (t.write p b) ∧ (t.write p b) p0 ≠ some .dir := by
  unfold Tree.write
  rcases hp with rfl | ⟨hpre, hlen⟩
  · split
    · exact ⟨fun q h1 h2 h3 => by simp only [if_neg h3]; exact h q h1 h2 h3, by simp⟩
    · exact ⟨h, hp0⟩
  · have hpar : t p.dropLast ≠ some .dir := by
      have hpp : p0 <+: p.dropLast := by
        have h1 := List.prefix_of_prefix_length_le hpre (List.dropLast_prefix p) (by simp; omega)
        exact h1
      by_cases he : p.dropLast = p0
      · rw [he]; exact hp0
      · rw [h p.dropLast (hd.1.trans hpp) (by intro e; rw [e] at hpp; have := hpp.length_le; omega) he]
        simp
    rw [if_neg (fun hh => hpar hh.1)]
    exact ⟨h, hp0⟩

/-- **C100, finding.** However many values of a table are saved with its document, only the first of them can be: with a new directory, after any of the
values were written at their paths, there is nothing at any path but the first. -/
theorem only_first_saved {R : Type} (lower : Str → Str) (acc : Export.Access R) (get : Nat → R) (table : Str) (cols keys : List Export.Column) (idxs : List Export.Idx)
    (found : List Nat) (toFile mkdir : Bool) (junk : Int) (file : Str) (doc : Str) (p0 : List Str) (saved : List (List Str))
    (h : Export.exportXml lower acc get table cols keys idxs found toFile mkdir junk file = .ok (doc, p0 :: saved))
    (t : Tree) (ht : ∀ p, [file ++ ".blob".toList] <+: p → p ≠ [file ++ ".blob".toList] → t p = none)
    (ws : List (List Str × Bytes)) (hw : ∀ w ∈ ws, w.1 ∈ p0 :: saved) : ∀ p ∈ saved, t.writeAll ws p = none := by
  have hb := blobs_below lower acc get table cols keys idxs found toFile mkdir junk file doc _ h
  have hn := Export.blobs_nested lower acc get table cols keys idxs found toFile mkdir junk file doc _ h
  rw [List.pairwise_cons] at hn
  have hd : [file ++ ".blob".toList] <+: p0 ∧ [file ++ ".blob".toList].length < p0.length := by
    have := hb p0 (by simp)
    simpa using this
  have key : ∀ (ws : List (List Str × Bytes)) (t : Tree), (∀ w ∈ ws, w.1 ∈ p0 :: saved) → Flat [file ++ ".blob".toList] p0 t → t p0 ≠ some .dir →
      Flat [file ++ ".blob".toList] p0 (t.writeAll ws) := by
    intro ws
    induction ws with
    | nil => intro t _ h _; exact h
    | cons w ws ih =>
      intro t hw h h0
      have := write_flat (b := w.2) h h0 (p := w.1) (by
        rcases List.mem_cons.1 (hw w (by simp)) with e | e
        · exact Or.inl e
        · exact Or.inr (hn.1 _ e)) hd
      exact ih (t.write w.1 w.2) (fun w hw' => hw w (by simp [hw'])) this.1 this.2
  intro p hp
  refine key ws t hw (fun q h1 h2 _ => ht q h1 h2) ?_ p (hb p (by simp [hp])).1 ?_ ?_
  · rw [ht p0 hd.1 (by intro e; rw [e] at hd; omega)]; simp
  · intro e; have := (hb p (by simp [hp])).2; rw [e] at this; simp at this
  · intro e; have := (hn.1 p hp).2; rw [e] at this; omega

end Verif.SaveBlob
