import Verif.TableOpen.FileParts
import Verif.Tree.Theorems

/-! # Property theorems: opening a table (C91) -/

namespace Verif.TableOpen
open Verif Record Tree Spec

/-- Page sizes of the formats: 4096 before 8.3.8. -/
def PageSizeOk (base : Base) : Prop := 8 ≤ base.pageSize ∧ (base.is838 = false → base.pageSize = 4096)

theorem bind_not_throw {α β : Type} {x : Outcome α} {f : α → Outcome β} (h : (x >>= f) ≠ .throw) (hx : x ≠ .ub) :
    ∃ a, x = .ok a ∧ f a ≠ .throw := by
  cases x with
  | ok a => exact ⟨a, rfl, h⟩
  | throw => exact absurd rfl h
  | ub => exact absurd rfl hx

theorem initTree_node {base : Base} {root : Node} (h : initTree base root ≠ .throw) : ∃ rt d, root.kids = [rt] ∧ TableNode rt d := by
  unfold initTree at h
  split at h
  · rename_i rt hk
    split at h
    · rename_i t0 u t2 t3 t4 t5 hr
      split at h
      · exact absurd rfl h
      · rename_i h0
        obtain ⟨sys, _, h⟩ := bind_not_throw h (isSystem_ne_ub _)
        obtain ⟨⟨fs, hv⟩, hf, h⟩ := bind_not_throw h (fieldPart_ne_ub _)
        obtain ⟨is, hi, h⟩ := bind_not_throw h (indexPart_ne_ub _ _)
        obtain ⟨lock, hl, h⟩ := bind_not_throw h (lockPart_ne_ub _)
        obtain ⟨⟨b0, b1, b2⟩, hb, _⟩ := bind_not_throw h (filePart_ne_ub _)
        obtain ⟨f1, ff, fr, fds, f2, f3, f4, f5, _⟩ := fieldPart_inv hf
        obtain ⟨i1, iff', ir, iis, i2, i3, i4⟩ := indexPart_inv hi
        refine ⟨rt, ⟨t0.value, fds, iis, lock, b0, b1, b2⟩, hk, t0, u, t2, t3, t4, t5, hr, ⟨by simpa using h0, rfl⟩,
          ⟨f1, f3, ff, fr, f2, f4, f5⟩, ⟨i1, iff', ir, i2, i3, i4⟩, lockPart_inv hl, ?_⟩
        obtain ⟨f, x, y, z, a, b, c, d, e⟩ := filePart_inv hb
        exact ⟨f, x, y, z, a, b, c, d, e⟩
    · exact absurd rfl h
  · exact absurd rfl h

/-- **C91, refusal.** Whatever is not of the form of a description is refused with an exception. -/
theorem not_a_description (base : Base) (root : Node) (h : ∀ rt d, root.kids = [rt] → ¬ TableNode rt d) : initTree base root = .throw := by
  by_contra hc
  obtain ⟨rt, d, h1, h2⟩ := initTree_node hc
  exact h rt d h1 h2

open Classical in
/-- What is left to do after the names of the table and of its fields. -/
noncomputable def tail (base : Base) (d : TableD) (ir : List Node) : Outcome Table := do
  let is ← indexes (d.fields.map (fun f => utf8Of f.1)) ir
  let data ← openFile base d.data
  let blob ← openFile base d.blob
  let index ← openFile base d.index
  let is ← indexFilePart base index is
  let (gs, len) ← layoutPart (d.fields.map infoOf).length
    (if d.recordlock && !d.fields.any (fun f => decide (f.2.type = .version)) then d.fields.map infoOf ++ [hidden] else d.fields.map infoOf)
  let (file, phys) ← physPart data len
  let is ← lengthPart base index is
  .ok ⟨utf8Of d.name, decide (Spec.System d.name), gs, (d.fields.map infoOf).length, is, d.recordlock, file, blob, index, len, phys⟩

open Classical in
/-- The parts before the files are opened. -/
theorem initTree_eq (base : Base) {root rt : Node} {d : TableD} (hk : root.kids = [rt]) (hd : TableNode rt d) (hn : NoNul d) :
    ∃ ir, List.Forall₂ IndexNode ir d.indexes ∧
      initTree base root = if (d.name.head? = some '_' → WholeTail 7 d.name) ∧ ∀ f ∈ d.fields, WholeTail 3 f.1 ∧ WholeTail 2 f.1
        then tail base d ir else .throw := by
  obtain ⟨a, u, t2, t3, t4, t5, hr, ha, ⟨f1, f3, ff, fr, f2, f4, f5⟩, ⟨i1, ix, ir, i2, i3, i4⟩, ⟨l1, l2, l3, l4, l5⟩,
    ⟨w, x, y, z, hf, hw, hx, hy, hz⟩⟩ := hd
  have hfr : fr ≠ [] := by
    intro e; subst e
    exact f3 (by simpa using f5)
  have hir : ir ≠ [] → IsStr ix "Indexes".toList := by
    intro e
    refine i3 fun e2 => e ?_
    rw [e2] at i4
    simpa using i4
  refine ⟨ir, i4, ?_⟩
  unfold initTree
  rw [hk]
  simp only
  rw [hr]
  simp only
  rw [if_neg (by rw [ha.1]; simp), ha.2, isSystem_eq hn.1, fieldPart_eq f1 f2 hfr f4, fields_eq f5 hn.2.1, lockPart_eq l3 l4 l5,
    filePart_eq hf hw hx hy hz]
  by_cases h1 : d.name.head? = some '_' → WholeTail 7 d.name
  · by_cases h2 : ∀ f ∈ d.fields, WholeTail 3 f.1 ∧ WholeTail 2 f.1
    · rw [if_pos h1, if_pos h2, if_pos ⟨h1, h2⟩]
      simp only [Outcome.ok_bind, Bool.false_or, indexPart_eq i1 i2 hir]
      have : (d.fields.map infoOf).map (fun f => f.field.name) = d.fields.map (fun f => utf8Of f.1) := by simp [infoOf, Function.comp_def]
      rw [this]
      rfl
    · have hno : ¬ ((d.name.head? = some '_' → WholeTail 7 d.name) ∧ ∀ f ∈ d.fields, WholeTail 3 f.1 ∧ WholeTail 2 f.1) := fun x => h2 x.2
      rw [if_pos h1, if_neg hno, if_neg h2]
      rfl
  · have hno : ¬ ((d.name.head? = some '_' → WholeTail 7 d.name) ∧ ∀ f ∈ d.fields, WholeTail 3 f.1 ∧ WholeTail 2 f.1) := fun x => h1 x.1
    rw [if_neg hno, if_neg h1]
    rfl

theorem openFile_ok {base : Base} {b : Int} {r : Option Bytes} (h : openFile base b = .ok r) :
    (b = 0 → r = none) ∧ (b ≠ 0 → ∃ f, base.file b = .ok f ∧ r = some f) := by
  unfold openFile at h
  split at h
  · rename_i hb; cases h; exact ⟨fun _ => rfl, fun x => absurd hb x⟩
  · rename_i hb
    obtain ⟨f, hf, h⟩ := bind_inv h
    cases h
    exact ⟨fun x => absurd x hb, fun _ => ⟨f, hf, rfl⟩⟩

theorem openFile_ne_ub {base : Base} (hu : ∀ b, base.file b ≠ .ub) (b : Int) : openFile base b ≠ .ub := by
  unfold openFile
  split
  · simp
  · exact bind_ne_ub (hu b) fun _ _ => by simp

theorem read_length {ds : List (Str × Decl)} {is : List IndexD} {xs : List Ix} (h : List.Forall₂ (Read ds) is xs) : xs.length = is.length :=
  h.length_eq.symm

theorem startPart_ne_ub {base : Base} (hP : 0 < base.pageSize) (f : Bytes) (xs : List Ix) : startPart base f xs ≠ .ub := by
  by_cases h : IndexFileOk base xs.length f
  · obtain ⟨ys, hy, _⟩ := (startPart_eq base hP f xs).1 h
    rw [hy]; simp
  · rw [(startPart_eq base hP f xs).2 h]; simp

theorem indexFilePart_ok {base : Base} (hP : 0 < base.pageSize) {o : Option Bytes} {xs ys : List Ix} (h : indexFilePart base o xs = .ok ys) :
    (xs = [] ∧ o = none ∧ ys = []) ∨ (xs ≠ [] ∧ ∃ f, o = some f ∧ IndexFileOk base xs.length f ∧ ys.length = xs.length ∧
      ∀ k x, xs[k]? = some x → ∃ s, Spec.startOf base f k = some s ∧ ys[k]? = some { x with start := s }) := by
  unfold indexFilePart at h
  split at h
  · cases h; exact .inl ⟨rfl, rfl, rfl⟩
  · cases h
  · cases h
  · rename_i f x xs
    right
    refine ⟨by simp, f, rfl, ?_⟩
    by_cases hi : IndexFileOk base (x :: xs).length f
    · obtain ⟨zs, hz, h1, h2⟩ := (startPart_eq base hP f (x :: xs)).1 hi
      rw [hz] at h; cases h
      exact ⟨hi, h1, h2⟩
    · rw [(startPart_eq base hP f _).2 hi] at h; cases h

theorem lengthPart_ok {base : Base} (hP : PageSizeOk base) {o : Option Bytes} {xs ys : List Ix} (h : indexFilePart base o xs = .ok ys) :
    ∃ zs, lengthPart base o ys = .ok zs ∧ zs.length = ys.length ∧
      ∀ f, o = some f → List.Forall₂ (Looked base f) ys zs := by
  rcases indexFilePart_ok (by have := hP.1; omega) h with ⟨rfl, rfl, rfl⟩ | ⟨hx, f, rfl, h1, h2, h3⟩
  · exact ⟨[], rfl, rfl, fun f hf => by cases hf⟩
  · have : ∀ y ∈ ys, y.start + 8 ≤ f.length := by
      intro y hy
      obtain ⟨k, hk, rfl⟩ := List.mem_iff_getElem.1 hy
      have hkx : k < xs.length := by omega
      obtain ⟨s, hs, hy'⟩ := h3 k xs[k] (List.getElem?_eq_getElem hkx)
      rw [List.getElem?_eq_getElem hk] at hy'
      obtain ⟨s', hs', hlt, h4⟩ := h1.2.2.2.2 k hkx
      rw [hs] at hs'; cases hs'
      have e : ys[k].start = s := by rw [Option.some.inj hy']
      rw [e]
      exact room hP.1 hP.2 h1.2.1 hs hlt h4
    obtain ⟨zs, hz, hl⟩ := lengths_ok base f ys this
    refine ⟨zs, hz, hl.length_eq.symm, fun f' hf' => ?_⟩
    cases hf'
    exact hl

theorem physPart_ne_ub (o : Option Bytes) (r : Int) : physPart o r ≠ .ub := by
  unfold physPart
  split
  · simp
  · dsimp only; split <;> simp

/-- **C91.** No description whose lengths are sane makes opening the table undefined, whatever the names, the files and the text are. -/
theorem open_defined (base : Base) (hP : PageSizeOk base) (hu : ∀ b, base.file b ≠ .ub) (root rt : Node) (d : TableD)
    (hk : root.kids = [rt]) (hd : TableNode rt d) (hn : NoNul d) (hs : Sane d) : initTree base root ≠ .ub := by
  obtain ⟨ir, _, he⟩ := initTree_eq base hk hd hn
  rw [he]
  split
  · unfold tail
    refine bind_ne_ub (indexes_ne_ub _ _) fun is _ => ?_
    refine bind_ne_ub (openFile_ne_ub hu _) fun data _ => ?_
    refine bind_ne_ub (openFile_ne_ub hu _) fun blob _ => ?_
    refine bind_ne_ub (openFile_ne_ub hu _) fun index _ => ?_
    refine bind_ne_ub ?_ fun ys hy => ?_
    · unfold indexFilePart
      split
      · simp
      · simp
      · simp
      · exact startPart_ne_ub (by have := hP.1; omega) _ _
    · refine bind_ne_ub ?_ fun p _ => ?_
      · have : ∀ rest : List FieldInfo, layoutPart (d.fields.map infoOf).length (d.fields.map infoOf ++ rest) ≠ .ub := by
          intro rest
          obtain ⟨gs, hg, _⟩ := layoutPart_ok d.fields rest hs.1 hs.2
          rw [hg]; simp
        split
        · exact this _
        · simpa using this []
      · obtain ⟨gs, len⟩ := p
        refine bind_ne_ub (physPart_ne_ub _ _) fun q _ => ?_
        obtain ⟨zs, hz, _⟩ := lengthPart_ok hP hy
        simp only [hz]
        exact bind_ne_ub (by simp) fun _ _ => by simp
  · simp

theorem layout_ok (d : TableD) (hs : Sane d) : ∃ gs : List FieldInfo,
    layoutPart (d.fields.map infoOf).length (if d.recordlock && !d.fields.any (fun f => decide (f.2.type = .version))
      then d.fields.map infoOf ++ [hidden] else d.fields.map infoOf) =
      .ok (gs ++ (if d.recordlock && !d.fields.any (fun f => decide (f.2.type = .version)) then [hidden] else []), ((recordBytes d : Nat) : Int)) ∧
      List.Forall₂ (fun f g => g.field.name = utf8Of f.1 ∧ g.field.decl = f.2 ∧ g.isGuid = (infoOf f).isGuid) d.fields gs ∧
      Record.Spec.Tiles 1 (Record.Spec.inOrder (gs.map FieldInfo.field)) (1 + (d.fields.map (fun f => Record.Spec.fieldBytes f.2)).sum) := by
  split
  · exact layoutPart_ok d.fields [hidden] hs.1 hs.2
  · have := layoutPart_ok d.fields [] hs.1 hs.2
    simpa [recordBytes] using this

theorem recordBytes_pos (d : TableD) : 0 < recordBytes d := by unfold recordBytes; omega

theorem physPart_iff {o : Option Bytes} {d : TableD} {r} :
    physPart o ((recordBytes d : Nat) : Int) = .ok r ↔
      ∃ f, o = some f ∧ f.length < 2 ^ 32 ∧ recordBytes d ∣ f.length ∧ r = (f, f.length / recordBytes d % 2 ^ 32) := by
  have hp := recordBytes_pos d
  unfold physPart
  cases o with
  | none => simp
  | some f =>
    dsimp only
    rw [Int.toNat_natCast]
    by_cases h : f.length / recordBytes d % 2 ^ 32 * recordBytes d % 2 ^ 32 = f.length
    · rw [if_neg (by rw [not_not]; exact h)]
      have := (phys_iff hp).1 h
      constructor
      · intro e; cases e; exact ⟨f, rfl, this.1, this.2, rfl⟩
      · rintro ⟨g, hg, _, _, rfl⟩; cases hg; rfl
    · rw [if_pos h]
      constructor
      · intro e; cases e
      · rintro ⟨g, hg, h1, h2, _⟩
        cases hg
        exact absurd ((phys_iff hp).2 ⟨h1, h2⟩) h

/-- **C91, what may be opened.** Only a table whose names and files are acceptable is opened. -/
theorem opened_acceptable (base : Base) (hP : PageSizeOk base) (root rt : Node) (d : TableD)
    (hk : root.kids = [rt]) (hd : TableNode rt d) (hn : NoNul d) (hs : Sane d) (t : Table) (h : initTree base root = .ok t) :
    Acceptable base d := by
  obtain ⟨ir, hir, he⟩ := initTree_eq base hk hd hn
  rw [he] at h
  split at h
  case isFalse => cases h
  rename_i hnames
  unfold tail at h
  obtain ⟨is, h1, h⟩ := bind_inv h
  obtain ⟨data, h2, h⟩ := bind_inv h
  obtain ⟨blob, h3, h⟩ := bind_inv h
  obtain ⟨index, h4, h⟩ := bind_inv h
  obtain ⟨ys, h5, h⟩ := bind_inv h
  obtain ⟨gs, hl, _, _⟩ := layout_ok d hs
  rw [hl] at h
  simp only [Outcome.ok_bind] at h
  obtain ⟨q, h6, _⟩ := bind_inv h
  have hie := indexes_eq (ds := d.fields) hn.2.1 hir hn.2.2
  have hix : ∀ i ∈ d.indexes, ∀ f ∈ i.fields, ∃ g ∈ d.fields, Same g.1 f.1 := by
    by_contra hc
    rw [hie.2 hc] at h1; cases h1
  obtain ⟨r, hr1, hr2⟩ := hie.1 hix
  rw [hr1] at h1; cases h1
  have hlen := read_length hr2
  obtain ⟨f, rfl, q1, q2, _⟩ := physPart_iff.1 h6
  have hd0 := openFile_ok h2
  have hi0 := openFile_ok h4
  have hix0 := indexFilePart_ok (by have := hP.1; omega) h5
  refine ⟨hnames.1, hnames.2, hix, ?_, ?_, ?_, ?_⟩
  · have : d.data ≠ 0 := fun e => by cases hd0.1 e
    obtain ⟨g, hg, e⟩ := hd0.2 this
    cases e
    exact ⟨this, f, hg, q1, q2⟩
  · intro hb
    obtain ⟨g, hg, _⟩ := (openFile_ok h3).2 hb
    exact ⟨g, hg⟩
  · intro e
    rw [e] at hlen
    by_contra hc
    obtain ⟨g, hg, rfl⟩ := hi0.2 hc
    rcases hix0 with ⟨_, hx, _⟩ | ⟨hx, _⟩
    · cases hx
    · exact hx (List.length_eq_zero_iff.1 (by simpa using hlen))
  · intro e
    rcases hix0 with ⟨hx, _, _⟩ | ⟨hx, g, rfl, hg, _⟩
    · rw [hx] at hlen
      exact absurd (List.length_eq_zero_iff.1 (by simpa using hlen.symm)) e
    · have : d.index ≠ 0 := fun e => by cases hi0.1 e
      obtain ⟨g', hg', e'⟩ := hi0.2 this
      cases e'
      rw [hlen] at hg
      exact ⟨this, g, hg', hg⟩

/-- **C91, refusal.** A table whose names or files are not acceptable is refused with an exception. -/
theorem unacceptable_refused (base : Base) (hP : PageSizeOk base) (hu : ∀ b, base.file b ≠ .ub) (root rt : Node) (d : TableD)
    (hk : root.kids = [rt]) (hd : TableNode rt d) (hn : NoNul d) (hs : Sane d) (ha : ¬ Acceptable base d) : initTree base root = .throw := by
  cases h : initTree base root with
  | ok t => exact absurd (opened_acceptable base hP root rt d hk hd hn hs t h) ha
  | throw => rfl
  | ub => exact absurd h (open_defined base hP hu root rt d hk hd hn hs)

theorem forall2_get {α β : Type} {R : α → β → Prop} {l : List α} {m : List β} (h : List.Forall₂ R l m) :
    ∀ (k : Nat) (a : α), l[k]? = some a → ∃ b, m[k]? = some b ∧ R a b := by
  induction h with
  | nil => intro k a h; simp at h
  | cons h1 _ ih =>
    intro k a hk
    cases k with
    | zero => simp at hk; subst hk; exact ⟨_, rfl, h1⟩
    | succ k => exact ih k a (by simpa using hk)

theorem map_names {ds : List (Str × Decl)} {gs : List FieldInfo}
    (h : List.Forall₂ (fun f g => g.field.name = utf8Of f.1 ∧ g.field.decl = f.2 ∧ g.isGuid = (infoOf f).isGuid) ds gs) :
    gs.map (fun f => (f.field.name, f.field.decl)) = ds.map (fun f => (Spec.utf8 f.1, f.2)) := by
  induction h with
  | nil => rfl
  | cons h _ ih => rw [List.map_cons, List.map_cons, ih, h.1, h.2.1, utf8Of_eq]

theorem hidden_names (d : TableD) :
    (if d.recordlock && !d.fields.any (fun f => decide (f.2.type = .version)) then [hidden] else []).map
      (fun f => (f.field.name, f.field.decl)) = hiddenFields d := by
  unfold hiddenFields
  have : (d.recordlock && !d.fields.any (fun f => decide (f.2.type = .version))) = true ↔
      d.recordlock = true ∧ ∀ f ∈ d.fields, f.2.type ≠ .version := by simp
  by_cases h : d.recordlock = true ∧ ∀ f ∈ d.fields, f.2.type ≠ .version
  · rw [if_pos (this.2 h), if_pos h, ← utf8Of_eq]
    rfl
  · rw [if_neg (fun x => h (this.1 x)), if_neg h]
    rfl

/-- **C91.** A table that is described, whose names and files are acceptable, is opened, and is what the description says. -/
theorem open_table (base : Base) (hP : PageSizeOk base) (root rt : Node) (d : TableD)
    (hk : root.kids = [rt]) (hd : TableNode rt d) (hn : NoNul d) (hs : Sane d) (ha : Acceptable base d) :
    ∃ t, initTree base root = .ok t ∧ Opened base d t := by
  obtain ⟨ir, hir, he⟩ := initTree_eq base hk hd hn
  have hP0 : 0 < base.pageSize := by have := hP.1; omega
  obtain ⟨is, hi, hread⟩ := (indexes_eq (ds := d.fields) hn.2.1 hir hn.2.2).1 ha.indexFields
  have hlen := read_length hread
  obtain ⟨hd0, df, hdf, hdl, hdd⟩ := ha.data
  obtain ⟨gs, hl, hgs, htile⟩ := layout_ok d hs
  have hblob : ∃ b, openFile base d.blob = .ok b := by
    by_cases hb : d.blob = 0
    · exact ⟨none, by rw [openFile, if_pos hb]⟩
    · obtain ⟨f, hf⟩ := ha.blob hb
      exact ⟨some f, by rw [openFile, if_neg hb, hf]; rfl⟩
  obtain ⟨blob, hblob⟩ := hblob
  have hindex : ∃ o ys, openFile base d.index = .ok o ∧ indexFilePart base o is = .ok ys := by
    by_cases hx : d.indexes = []
    · rw [hx] at hlen
      have : is = [] := List.length_eq_zero_iff.1 (by simpa using hlen)
      subst this
      exact ⟨none, [], by rw [openFile, if_pos (ha.noIndex hx)], rfl⟩
    · obtain ⟨h0, f, hf, hok⟩ := ha.index hx
      rw [← hlen] at hok
      obtain ⟨ys, hy, _⟩ := (startPart_eq base hP0 f is).1 hok
      refine ⟨some f, ys, by rw [openFile, if_neg h0, hf]; rfl, ?_⟩
      cases is with
      | nil => exact absurd (List.length_eq_zero_iff.1 (by simpa using hlen.symm)) hx
      | cons x xs => exact hy
  obtain ⟨index, ys, hi1, hi2⟩ := hindex
  obtain ⟨zs, hz1, hz2, hz3⟩ := lengthPart_ok hP hi2
  have hi3 := indexFilePart_ok hP0 hi2
  have hgl : gs.length = d.fields.length := hgs.length_eq.symm
  refine ⟨⟨utf8Of d.name, @decide (Spec.System d.name) (Classical.propDecidable _),
      gs ++ (if d.recordlock && !d.fields.any (fun f => decide (f.2.type = .version)) then [hidden] else []), (d.fields.map infoOf).length,
      zs, d.recordlock, df, blob, index, ((recordBytes d : Nat) : Int), df.length / recordBytes d % 2 ^ 32⟩, ?_, ?_⟩
  · rw [he, if_pos ⟨ha.tableName, ha.fieldNames⟩, tail, hi]
    simp only [Outcome.ok_bind]
    rw [show openFile base d.data = .ok (some df) by rw [openFile, if_neg hd0, hdf]; rfl, hblob, hi1]
    simp only [Outcome.ok_bind]
    rw [hi2, hl]
    simp only [Outcome.ok_bind]
    rw [physPart_iff.2 ⟨df, rfl, hdl, hdd, rfl⟩, hz1]
    rfl
  · have htake : (gs ++ (if d.recordlock && !d.fields.any (fun f => decide (f.2.type = .version)) then [hidden] else [])).take d.fields.length = gs := by
      rw [← hgl, List.take_left']; rfl
    refine ⟨utf8Of_eq _, ?_, by simp, ?_, ?_, ?_, rfl, rfl, hdf, ?_, openFile_ok hblob, ?_, ?_, ?_⟩
    · simp
    · simp only [List.map_append]
      rw [map_names hgs, hidden_names]
    · dsimp only
      rw [htake]
      refine hgs.imp fun f g h => ?_
      rw [h.2.2, infoOf]
      simp only [Bool.and_eq_true, decide_eq_true_eq]
      tauto
    · dsimp only
      rw [htake]
      exact htile
    · dsimp only
      obtain ⟨c, hc⟩ := hdd
      rw [hc, Nat.mul_div_cancel_left _ (recordBytes_pos d), Nat.mod_eq_of_lt, Nat.mul_comm]
      have := Nat.le_mul_of_pos_left c (recordBytes_pos d)
      omega
    · dsimp only
      rcases hi3 with ⟨e1, _, e2⟩ | ⟨_, _, _, _, e, _⟩
      · rw [hz2, e2, ← hlen, e1]
      · rw [hz2, e, hlen]
    · intro hx
      exact (openFile_ok hi1).1 (ha.noIndex hx)
    · intro hx
      obtain ⟨h0, f, hf, _⟩ := ha.index hx
      obtain ⟨f', hf', ho⟩ := (openFile_ok hi1).2 h0
      rw [hf] at hf'; cases hf'
      refine ⟨f, hf, ho, fun k i hki => ?_⟩
      obtain ⟨x, hx1, r1, r2, r3, r4, r5⟩ := forall2_get hread k i hki
      rcases hi3 with ⟨e1, e3, _⟩ | ⟨_, f', e0, _, _, e⟩
      · rw [e3] at ho; cases ho
      rw [ho] at e0; cases e0
      obtain ⟨s, hs1, hs2⟩ := e k x hx1
      obtain ⟨z, hz, l1, l2, l3, l4, l5, l6, l7⟩ := forall2_get (hz3 f ho) k _ hs2
      simp only at l1 l2 l3 l4 l5 l6 l7
      rw [← l4] at hs1 l5 l6 l7
      refine ⟨z, hz, by rw [l1, r1, utf8Of_eq], by rw [l2, r2], by rw [l3]; exact r3, hs1, fun h => ?_, l6, l7⟩
      rw [(l5 h).1, (l5 h).2]
      exact ⟨r4, r5⟩

/-! ## The text of the description -/

/-- **C91, from the text.** A description printed as text opens as the table it describes. -/
theorem open_text (base : Base) (hP : PageSizeOk base) (rt : Node) (d : TableD) (hw : Tree.Spec.WellFormed rt)
    (hd : TableNode rt d) (hn : NoNul d) (hs : Sane d) (ha : Acceptable base d) :
    ∃ t, init base (outtext (.list [rt])) = .ok (some t) ∧ Opened base d t := by
  have hne : rt ≠ .mk .empty [] [] := by
    intro e
    obtain ⟨a, u, t2, t3, t4, t5, hr, _⟩ := hd
    rw [e] at hr
    cases hr
  have hp := print_parse_partial rt hw hne
  obtain ⟨t, ht, ho⟩ := open_table base hP (.list [rt]) rt d rfl hd hn hs ha
  refine ⟨t, ?_, ho⟩
  unfold init
  rw [if_neg, hp, Outcome.ok_bind, ht]
  · rfl
  · intro e
    rw [List.isEmpty_iff] at e
    rw [e] at hp
    revert hp
    rw [show parseText [] = .throw from rfl]
    simp

/-- **C91, from the text.** A table is only opened from a text that parses to a description. -/
theorem opened_from_description (base : Base) (s : Str) (t : Table) (h : init base s = .ok (some t)) :
    ∃ root rt d, parseText s = .ok root ∧ root.kids = [rt] ∧ TableNode rt d := by
  unfold init at h
  split at h
  · cases h
  · obtain ⟨root, h1, h⟩ := bind_inv h
    obtain ⟨t', h2, _⟩ := bind_inv h
    obtain ⟨rt, d, h3, h4⟩ := initTree_node (base := base) (root := root) (by rw [h2]; simp)
    exact ⟨root, rt, d, h1, h3, h4⟩

/-- The empty text is no error: the table is left without fields. -/
theorem open_empty (base : Base) : init base [] = .ok none := rfl

/-! ## What a description means is determined -/

theorem number_unique {s : Str} {a b : Int} (ha : Number s a) (hb : Number s b) : a = b := by
  rw [← stoi_iff] at ha hb
  rw [ha] at hb
  cases hb; rfl

theorem bit_unique {n : Node} {a b : Bool} (ha : IsBit n a) (hb : IsBit n b) : a = b := by
  have := ha.2.symm.trans hb.2
  revert this; cases a <;> cases b <;> simp

theorem typeName_unique {a b : FType} {s : Str} (ha : Record.Spec.typeName a = some s) (hb : Record.Spec.typeName b = some s) : a = b := by
  rw [← hb] at ha
  revert ha
  clear hb
  cases a <;> cases b <;> simp [Record.Spec.typeName]

theorem field_unique {n : Node} {f g : Str × Decl} (hf : FieldNode n f) (hg : FieldNode n g) : f = g := by
  obtain ⟨a, b, c, d, e, k, ty, h0, h1, h2, h3, h4, h5, h6, h7⟩ := hf
  obtain ⟨a', b', c', d', e', k', ty', h0', h1', h2', h3', h4', h5', h6', h7'⟩ := hg
  rw [h0] at h0'
  simp only [List.cons.injEq, and_true] at h0'
  obtain ⟨rfl, rfl, rfl, rfl, rfl, rfl⟩ := h0'
  have e1 : f.1 = g.1 := h1.2.symm.trans h1'.2
  have e2 : ty = ty' := h3.2.symm.trans h3'.2
  subst e2
  have e3 := typeName_unique h2 h2'
  have e4 := bit_unique h4 h4'
  have e5 := number_unique h5.2 h5'.2
  have e6 := number_unique h6.2 h6'.2
  have e7 : f.2.caseSensitive = g.2.caseSensitive := by
    have := h7.2.symm.trans h7'.2
    revert this; cases f.2.caseSensitive <;> cases g.2.caseSensitive <;> simp
  obtain ⟨n1, ⟨t1, x1, l1, p1, c1⟩⟩ := f
  obtain ⟨n2, ⟨t2, x2, l2, p2, c2⟩⟩ := g
  simp only at e1 e3 e4 e5 e6 e7
  subst e1 e3 e4 e5 e6 e7
  rfl

theorem forall2_unique {α β : Type} {R : α → β → Prop} (hu : ∀ a b c, R a b → R a c → b = c) {l : List α} {m : List β}
    (h : List.Forall₂ R l m) : ∀ {m' : List β}, List.Forall₂ R l m' → m = m' := by
  induction h with
  | nil => intro m' h'; cases h'; rfl
  | cons h1 _ ih => intro m' h'; cases h' with
    | cons h2 h3 => rw [hu _ _ _ h1 h2, ih h3]

theorem indexField_unique {n : Node} {f g : Str × Int} (hf : IndexFieldNode n f) (hg : IndexFieldNode n g) : f = g := by
  obtain ⟨a, b, h0, h1, h2⟩ := hf
  obtain ⟨a', b', h0', h1', h2'⟩ := hg
  rw [h0] at h0'
  simp only [List.cons.injEq, and_true] at h0'
  obtain ⟨rfl, rfl⟩ := h0'
  exact Prod.ext (h1.2.symm.trans h1'.2) (number_unique h2.2 h2'.2)

theorem index_unique {n : Node} {i j : IndexD} (hi : IndexNode n i) (hj : IndexNode n j) : i = j := by
  obtain ⟨_, _, a, b, rs, h0, h1, h2, h3⟩ := hi
  obtain ⟨_, _, a', b', rs', h0', h1', h2', h3'⟩ := hj
  rw [h0] at h0'
  simp only [List.cons.injEq] at h0'
  obtain ⟨rfl, rfl, rfl⟩ := h0'
  have e1 : i.name = j.name := h1.2.symm.trans h1'.2
  have e2 := bit_unique h2 h2'
  have e3 := forall2_unique (R := IndexFieldNode) (fun _ _ _ => indexField_unique) h3 h3'
  obtain ⟨n1, p1, f1⟩ := i
  obtain ⟨n2, p2, f2⟩ := j
  simp only at e1 e2 e3
  subst e1 e2 e3
  rfl

/-- **C91.** A description describes one table. -/
theorem description_unique {n : Node} {d d' : TableD} (h : TableNode n d) (h' : TableNode n d') : d = d' := by
  obtain ⟨a, u, t2, t3, t4, t5, hr, ha, ⟨_, _, ff, fr, f2, _, f5⟩, ⟨_, ix, ir, i2, _, i4⟩, ⟨l1, l2, l3, _, l5⟩,
    ⟨w, x, y, z, hf, _, hx, hy, hz⟩⟩ := h
  obtain ⟨a', u', t2', t3', t4', t5', hr', ha', ⟨_, _, ff', fr', f2', _, f5'⟩, ⟨_, ix', ir', i2', _, i4'⟩, ⟨l1', l2', l3', _, l5'⟩,
    ⟨w', x', y', z', hf', _, hx', hy', hz'⟩⟩ := h'
  rw [hr] at hr'
  simp only [List.cons.injEq, and_true] at hr'
  obtain ⟨rfl, rfl, rfl, rfl, rfl, rfl⟩ := hr'
  rw [f2] at f2'; rw [i2] at i2'; rw [l3] at l3'; rw [hf] at hf'
  simp only [List.cons.injEq, and_true] at f2' i2' l3' hf'
  obtain ⟨rfl, rfl⟩ := f2'
  obtain ⟨rfl, rfl⟩ := i2'
  obtain ⟨rfl, rfl⟩ := l3'
  obtain ⟨rfl, rfl, rfl, rfl⟩ := hf'
  have e1 : d.name = d'.name := ha.2.symm.trans ha'.2
  have e2 := forall2_unique (R := FieldNode) (fun _ _ _ => field_unique) f5 f5'
  have e3 := forall2_unique (R := IndexNode) (fun _ _ _ => index_unique) i4 i4'
  have e4 : d.recordlock = d'.recordlock := by
    have := l5.2.symm.trans l5'.2
    revert this; cases d.recordlock <;> cases d'.recordlock <;> simp
  have e5 := number_unique hx.2 hx'.2
  have e6 := number_unique hy.2 hy'.2
  have e7 := number_unique hz.2 hz'.2
  obtain ⟨d1, d2, d3, d4, d5, d6, d7⟩ := d
  obtain ⟨c1, c2, c3, c4, c5, c6, c7⟩ := d'
  simp only at e1 e2 e3 e4 e5 e6 e7
  subst e1 e2 e3 e4 e5 e6 e7
  rfl

/-- **C91.** An index only has fields of the table. -/
theorem index_fields_exist (base : Base) (d : TableD) (t : Table) (h : Opened base d t) (x : Ix) (hx : x ∈ t.indexes) :
    ∀ f ∈ x.fields, f.1 < t.numFields := by
  intro g hg
  obtain ⟨k, hk, rfl⟩ := List.mem_iff_getElem.1 hx
  have hk' : k < d.indexes.length := by rw [← h.numIndexes]; exact hk
  have hne : d.indexes ≠ [] := by intro e; rw [e] at hk'; simp at hk'
  obtain ⟨f, _, _, hi⟩ := h.index hne
  obtain ⟨y, hy, hi⟩ := hi k _ (List.getElem?_eq_getElem hk')
  rw [List.getElem?_eq_getElem hk] at hy
  cases hy
  have hfl := hi.fields
  obtain ⟨j, hj, rfl⟩ := List.mem_iff_getElem.1 hg
  have hj' : j < (d.indexes[k]).fields.length := by rw [hfl.length_eq]; exact hj
  obtain ⟨g', hg', hR⟩ := forall2_get hfl j _ (List.getElem?_eq_getElem hj')
  rw [List.getElem?_eq_getElem hj] at hg'
  cases hg'
  obtain ⟨⟨⟨f', hf', _⟩, _⟩, _⟩ := hR
  rw [h.numFields]
  exact (List.getElem?_eq_some_iff.1 hf').1

/-- **C91.** Every record of the table is inside the data file. -/
theorem records_inside (base : Base) (d : TableD) (t : Table) (h : Opened base d t) (i : Nat) (hi : i < t.phys) :
    (i + 1) * recordBytes d ≤ t.data.length := by
  rw [h.phys]
  exact Nat.mul_le_mul_right _ hi

/-! ## Tables that cannot be opened -/

/-- A file of 4 GB or more. -/
theorem big_data_refused (base : Base) (hP : PageSizeOk base) (hu : ∀ b, base.file b ≠ .ub) (root rt : Node) (d : TableD)
    (hk : root.kids = [rt]) (hd : TableNode rt d) (hn : NoNul d) (hs : Sane d) (f : Bytes) (hf : base.file d.data = .ok f)
    (hbig : 2 ^ 32 ≤ f.length) : initTree base root = .throw := by
  refine unacceptable_refused base hP hu root rt d hk hd hn hs fun ha => ?_
  obtain ⟨_, g, hg, hl, _⟩ := ha.data
  rw [hf] at hg; cases hg
  omega

theorem utf8_single (c : Char) : Spec.utf8 [c] = Unicode.Spec.utf8 c.toNat := by
  simp [Spec.utf8, Spec.codes, Unicode.Spec.utf8Text]

theorem utf8_two_bytes (c : Char) (h1 : 0x80 ≤ c.toNat) (h2 : c.toNat < 0x800) : (Spec.utf8 [c]).length = 2 := by
  rw [utf8_single, Unicode.Spec.utf8]
  rw [if_neg (by omega), if_pos (by omega)]
  rfl

theorem not_whole {p : Str} {a b : Char} (ha : 0x80 ≤ a.toNat ∧ a.toNat < 0x800) (hb : 0x80 ≤ b.toNat ∧ b.toNat < 0x800) :
    ¬ WholeTail 3 (p ++ [a, b]) := by
  have la := utf8_two_bytes a ha.1 ha.2
  have lb := utf8_two_bytes b hb.1 hb.2
  have split : ∀ (x : Char) (s : Str), Spec.utf8 (s ++ [x]) = Spec.utf8 s ++ Spec.utf8 [x] := fun x s => utf8_append s [x]
  rintro (h | ⟨r, q, hrq, hq⟩)
  · rw [show p ++ [a, b] = (p ++ [a]) ++ [b] by simp, split, split, List.length_append, List.length_append, la, lb] at h
    omega
  · rcases List.eq_nil_or_concat q with rfl | ⟨q1, x, rfl⟩
    · simp [Spec.utf8, Spec.codes, Unicode.Spec.utf8Text] at hq
    · rw [List.concat_eq_append] at hrq hq
      rw [show p ++ [a, b] = (p ++ [a]) ++ [b] by simp, ← List.append_assoc] at hrq
      obtain ⟨h1, h2⟩ := List.append_inj' hrq rfl
      cases h2
      rw [split, List.length_append, lb] at hq
      rcases List.eq_nil_or_concat q1 with rfl | ⟨q2, y, rfl⟩
      · simp [Spec.utf8, Spec.codes, Unicode.Spec.utf8Text] at hq
      · rw [List.concat_eq_append] at h1 hq
        rw [← List.append_assoc] at h1
        obtain ⟨_, h2⟩ := List.append_inj' h1 rfl
        cases h2
        rw [split, List.length_append, la] at hq
        omega

/-- **C91 fails** for fields whose names end in two letters of two bytes each, Cyrillic ones for instance: testing whether the name ends in
`REF` cuts a character in two, and the table cannot be opened. -/
theorem cyrillic_field_refused (base : Base) (hP : PageSizeOk base) (hu : ∀ b, base.file b ≠ .ub) (root rt : Node) (d : TableD)
    (hk : root.kids = [rt]) (hd : TableNode rt d) (hn : NoNul d) (hs : Sane d) (p : Str) (a b : Char) (D : Decl)
    (ha : 0x80 ≤ a.toNat ∧ a.toNat < 0x800) (hb : 0x80 ≤ b.toNat ∧ b.toNat < 0x800) (hf : (p ++ [a, b], D) ∈ d.fields) :
    initTree base root = .throw :=
  unacceptable_refused base hP hu root rt d hk hd hn hs fun h => not_whole ha hb (h.fieldNames _ hf).1

end Verif.TableOpen
