import Verif.Object.TransferLemmas

/-! # Property theorems: the files of a table, exported into a folder and imported (C83) -/

namespace Verif.Object.Transfer
open Verif

/-- **C83.** What an export writes: for each internal file the flag says whether it is
there, and if it is, its versions are in the record and its contents in the file of that name;
a file the table does not have leaves what the folder held under that name. -/
theorem export_writes (pages : List Bytes) (P : Nat) (junk : Nat → UInt8) (t : Files) (old f : Folder)
    (h : exportTable pages P junk t old = .ok f) :
    (∀ o, t.data = some o → ∃ b, saveToFile pages P o = .ok b ∧ f.data = some b) ∧ (t.data = none → f.data = old.data) ∧
    (∀ o, t.blob = some o → ∃ b, saveToFile pages P o = .ok b ∧ f.blob = some b) ∧ (t.blob = none → f.blob = old.blob) ∧
    (∀ o, t.index = some o → ∃ b, saveToFile pages P o = .ok b ∧ f.index = some b) ∧ (t.index = none → f.index = old.index) ∧
    (∀ o, t.descr = some o → ∃ b, saveToFile pages P o = .ok b ∧ f.descr = some b) ∧ (t.descr = none → f.descr = old.descr) ∧
    f.root = some (rootBytes junk t) := by
  have key : ∀ {x : Option Obj} {b r : Option Bytes}, exportFile pages P b x = .ok r →
      (∀ o, x = some o → ∃ c, saveToFile pages P o = .ok c ∧ r = some c) ∧ (x = none → r = b) := by
    intro x b r hx
    cases x with
    | none => cases hx; exact ⟨fun o ho => (by cases ho), fun _ => rfl⟩
    | some o =>
      obtain ⟨c, hc, hx⟩ := bind_ok' hx
      cases hx
      exact ⟨fun o' ho => (by cases ho; exact ⟨c, hc, rfl⟩), fun hn => (by cases hn)⟩
  unfold exportTable at h
  obtain ⟨a, ha, h⟩ := bind_ok' h
  obtain ⟨b, hb, h⟩ := bind_ok' h
  obtain ⟨c, hc, h⟩ := bind_ok' h
  obtain ⟨d, hd, h⟩ := bind_ok' h
  cases h
  exact ⟨(key ha).1, (key ha).2, (key hb).1, (key hb).2, (key hc).1, (key hc).2, (key hd).1, (key hd).2, rfl⟩

/-- **C83.** The record `root`: 36 bytes, from which the flags and the versions of the files
that are there can be read back, whatever the bytes that are not assigned. -/
theorem root_record (junk : Nat → UInt8) (t : Files) :
    (rootBytes junk t).length = 36 ∧
    ∀ k, k < 4 → flag (rootBytes junk t) k = .ok (t.at k).isSome ∧
      ∀ o, t.at k = some o → o.ver1 < 2 ^ 32 → o.ver2 < 2 ^ 32 → versions (rootBytes junk t) k = .ok (currentVersion o) := by
  refine ⟨by simp [rootBytes, length_verBytes], fun k hk => ⟨root_flag junk t k hk, fun o ho h1 h2 => root_versions junk t k hk o ho h1 h2⟩⟩

theorem offers_of {pages0 : List Bytes} {P0 : Nat} {x o : Option Obj} {b : Option Bytes}
    (hw : ∀ y, x = some y → ∃ c, saveToFile pages0 P0 y = .ok c ∧ b = some c)
    (hf : ∀ y, x = some y → y.ver1 < 2 ^ 32 ∧ y.ver2 < 2 ^ 32 ∧ ∀ c, b = some c → Fits o c) : Offers x o b := by
  intro y hy
  obtain ⟨c, _, hc⟩ := hw y hy
  obtain ⟨h1, h2, h3⟩ := hf y hy
  exact ⟨c, hc, h3 c hc, h1, h2⟩

theorem arrived_of {e : Env} {pages0 : List Bytes} {P0 : Nat} {s : St} {sp : FreeSpec.State} {x : Option Obj} {b : Option Bytes}
    {o' : Option Obj} {ps' : List Nat} (hr : Rep e s sp)
    (hw : ∀ y, x = some y → ∃ c, saveToFile pages0 P0 y = .ok c ∧ b = some c)
    (hf : ∀ y c, x = some y → b = some c → ∃ z p, o' = some z ∧ Full s sp z p c (currentVersion y) ∧ ∀ q ∈ p, q ∈ ps') :
    ∀ y, x = some y → Arrived pages0 P0 s.pages y o' := by
  intro y hy
  obtain ⟨c, hs, hc⟩ := hw y hy
  obtain ⟨z, p, hz, hfull, _⟩ := hf y c hy hc
  exact ⟨c, z, hs, hz, full_carries hr hfull⟩

/-- **C83, format 8.0, the destination has every file that was exported.** A table exported from
any database and imported into another: each internal file of the destination then
has exactly the contents and the versions of the exported one, on the same header page; a
file that was not exported, the description, and every other page in use are as they were;
and the pages of the database are still accounted for.
Missing: contents of the lengths of `set_whole_80_loses_last_page` and emptying a file
(`import_empty_never_returns`); format 8.3.8 (`import_838_wrong_length`). -/
theorem import_export_80_partial (e : Env) (hslack : 3 * 254 ≤ e.slack) (fuel : Nat) (s : St) (sp : FreeSpec.State) (pages0 : List Bytes)
    (P0 : Nat) (junk : Nat → UInt8) (x t : Files) (old f : Folder) (pd pb pi : List Nat)
    (hx : exportTable pages0 P0 junk x old = .ok f)
    (hr : Rep e s sp) (hd : Part s sp t.data pd) (hb : Part s sp t.blob pb) (hi : Part s sp t.index pi)
    (dis : (pd ++ pb ++ pi).Nodup) (hfit : FitsAll x t f) (hmiss : ¬ Missing x t)
    (hsm : sp.total + 2 * pagesOf f + 3 ≤ 2 ^ 32) (hbu : Budget sp (2 * (pd ++ pb ++ pi).length + 9))
    (hfuel : (pd ++ pb ++ pi).length + 1 < fuel) :
    ∃ s' t', importTable e false fuel false f s t = .ok (some (s', t')) ∧
      (∀ y, x.data = some y → Arrived pages0 P0 s'.pages y t'.data) ∧ (x.data = none → t'.data = t.data) ∧ Stays t.data t'.data ∧
      (∀ y, x.blob = some y → Arrived pages0 P0 s'.pages y t'.blob) ∧ (x.blob = none → t'.blob = t.blob) ∧ Stays t.blob t'.blob ∧
      (∀ y, x.index = some y → Arrived pages0 P0 s'.pages y t'.index) ∧ (x.index = none → t'.index = t.index) ∧ Stays t.index t'.index ∧
      t'.descr = t.descr ∧
      (∀ q ∈ sp.used, (q ∈ pd → x.data = none) → (q ∈ pb → x.blob = none) → (q ∈ pi → x.index = none) →
        s'.pages[q]? = s.pages[q]?) ∧
      (∃ sp', Rep e s' sp') := by
  obtain ⟨w1, _, w2, _, w3, _, _, _, w4⟩ := export_writes _ _ _ _ _ _ hx
  obtain ⟨s1, s2, s', data, blob, index, sp', ps', a1, a2, a3, c⟩ := import_three hslack (fuel := fuel) (k := 0) (x := x) (f := f) hr hd hb hi dis junk
    (offers_of w1 hfit.1) (offers_of w2 hfit.2.1) (offers_of w3 hfit.2.2) (by simpa [need, pagesOf] using hsm) hbu hfuel
  have nomiss : ∀ {xo tt r : Option Obj}, ¬ (xo ≠ none ∧ tt = none) → (xo = none → r = tt) → decide (tt = none ∧ r ≠ none) = false := by
    intro xo tt r h1 h2
    rw [decide_eq_false_iff_not]
    rintro ⟨h3, h4⟩
    by_cases hxo : xo = none
    · exact h4 (by rw [h2 hxo, h3])
    · exact h1 ⟨hxo, h3⟩
  have hm1 : ¬ (x.data ≠ none ∧ t.data = none) := fun h => hmiss (Or.inl h)
  have hm2 : ¬ (x.blob ≠ none ∧ t.blob = none) := fun h => hmiss (Or.inr (Or.inl h))
  have hm3 : ¬ (x.index ≠ none ∧ t.index = none) := fun h => hmiss (Or.inr (Or.inr h))
  refine ⟨s', ⟨data, blob, index, t.descr⟩, ?_, arrived_of c.rep w1 c.data, c.keptData, c.sameData, arrived_of c.rep w2 c.blob,
    c.keptBlob, c.sameBlob, arrived_of c.rep w3 c.index, c.keptIndex, c.sameIndex, rfl,
    fun q hq k1 k2 k3 => (c.keep q hq k1 k2 k3).2, sp', c.rep⟩
  unfold importTable
  rw [w4, Option.getD_some, rootBytes_take]
  simp only [a1, Outcome.ok_bind, a2, a3, nomiss hm1 c.keptData, nomiss hm2 c.keptBlob, nomiss hm3 c.keptIndex, Bool.or_false]
  rfl

open Unicode.Spec in
/-- **C83, format 8.0, a file is missing in the destination.** It is created with the contents and
the versions of the exported one, and the description of the table in the destination
becomes the exported description in which the section `Files` names the header pages of the
destination's files. Everything else is as in `import_export_80_partial`.
Missing: as there; descriptions longer than a million bytes; the versions of the description,
which are written and then overwritten by the replacement of its contents. -/
theorem import_creates_80_partial (e : Env) (hslack : 3 * 254 ≤ e.slack) (fuel : Nat) (s : St) (sp : FreeSpec.State) (pages0 : List Bytes)
    (P0 : Nat) (junk : Nat → UInt8) (x t : Files) (old f : Folder) (pd pb pi pt : List Nat) (y od : Obj) (text pre : List Nat)
    (hx : exportTable pages0 P0 junk x old = .ok f)
    (hr : Rep e s sp) (hd : Part s sp t.data pd) (hb : Part s sp t.blob pb) (hi : Part s sp t.index pi)
    (ht : t.descr = some od) (hot : Owned s sp od pt)
    (dis : (pd ++ pb ++ pi ++ pt).Nodup) (hfit : FitsAll x t f) (hmiss : Missing x t)
    (hy : x.descr = some y) (hv1 : y.ver1 < 2 ^ 32) (hv2 : y.ver2 < 2 ^ 32)
    (htext : f.descr = some (utf16Text text)) (hsc : ∀ c ∈ text, Scalar c) (hfirst : FirstAt (ascii "{\"Files\",") text pre)
    (hpre : (utf16Text pre).length ≤ 1000000) (hold : od.len ≤ 254 * (1023 * 4096))
    (hsm : sp.total + 2 * pagesOf f + 1003 ≤ 2 ^ 32) (hbu : Budget sp (2 * (pd ++ pb ++ pi ++ pt).length + 9))
    (hfuel : (pd ++ pb ++ pi ++ pt).length + 1 < fuel) :
    ∃ s' t', importTable e false fuel false f s t = .ok (some (s', t')) ∧
      (∀ y, x.data = some y → Arrived pages0 P0 s'.pages y t'.data) ∧ (x.data = none → t'.data = t.data) ∧ Stays t.data t'.data ∧
      (∀ y, x.blob = some y → Arrived pages0 P0 s'.pages y t'.blob) ∧ (x.blob = none → t'.blob = t.blob) ∧ Stays t.blob t'.blob ∧
      (∀ y, x.index = some y → Arrived pages0 P0 s'.pages y t'.index) ∧ (x.index = none → t'.index = t.index) ∧ Stays t.index t'.index ∧
      (∃ z v, t'.descr = some z ∧ z.block = od.block ∧
        Carries s'.pages z.block (utf16Text (pre ++ filesSection (num t'.data) (num t'.blob) (num t'.index))) v) ∧
      (∀ q ∈ sp.used, (q ∈ pd → x.data = none) → (q ∈ pb → x.blob = none) → (q ∈ pi → x.index = none) → q ∉ pt →
        s'.pages[q]? = s.pages[q]?) ∧
      (∃ sp', Rep e s' sp') := by
  obtain ⟨w1, _, w2, _, w3, _, _, _, w4⟩ := export_writes _ _ _ _ _ _ hx
  have dis' := List.nodup_append.mp dis
  have hnpt : ∀ q ∈ pt, q ∉ pd ++ pb ++ pi := fun q h1 h2 => dis'.2.2 q h2 q h1 rfl
  rw [List.length_append] at hbu hfuel
  obtain ⟨s1, s2, s3, data, blob, index, sp3, ps3, a1, a2, a3, c⟩ := import_three hslack (fuel := fuel) (k := 2 * pt.length) (x := x) (f := f) hr hd hb hi dis'.1 junk
    (offers_of w1 hfit.1) (offers_of w2 hfit.2.1) (offers_of w3 hfit.2.2)
    (by have : need f.data + need f.blob + need f.index = pagesOf f := rfl
        omega) (budget_mono hbu (by omega)) (by omega)
  have hus : ∀ q ∈ pt, q ∈ sp.used := fun q hq => part_used (o := some od) hot q hq
  have hot3 : Owned s3 sp3 od pt := owned_frame hot (fun q hq => by
    obtain ⟨u, _, w⟩ := c.frame q (hus q hq) (hnpt q hq)
    exact ⟨u, w⟩)
  have htot : sp3.total ≤ sp.total + 2 * pagesOf f + 3 := c.total
  have hnum : ∀ o : Option Obj, (∀ z, o = some z → z.block ∈ sp3.used) → num o < 2 ^ 32 := by
    intro o ho
    cases o with
    | none => decide
    | some z =>
      have h1 := (used_facts c.rep (ho z rfl)).1
      have h2 := c.rep.total
      show z.block < 2 ^ 32
      omega
  obtain ⟨s', o', sp', ps', v, b1, b2, b3, b4, b5⟩ := importDescr_ok hslack (fuel := fuel) junk (x := x) (t := ⟨data, blob, index, t.descr⟩)
    c.rep hy ht hot3 hv1 hv2 text pre hsc hfirst (hnum data c.usedData) (hnum blob c.usedBlob) (hnum index c.usedIndex) hpre hold
    (by omega) c.budget (by omega)
  have carry : ∀ {xo : Option Obj} {fo : Option Bytes} {o2 : Option Obj},
      (∀ y c, xo = some y → fo = some c → ∃ z p, o2 = some z ∧ Full s3 sp3 z p c (currentVersion y) ∧ ∀ q ∈ p, q ∈ ps3) →
      (∀ y c, xo = some y → fo = some c → ∃ z p, o2 = some z ∧ Full s' sp' z p c (currentVersion y) ∧ ∀ q ∈ p, q ∈ ps3) := by
    intro xo fo o2 h y c' h1 h2
    obtain ⟨z, p, hz, hfull, hp⟩ := h y c' h1 h2
    refine ⟨z, p, hz, full_frame hfull ?_, hp⟩
    intro q hq
    have hnq : q ∉ pt := fun hh => (c.frame q (hus q hh) (hnpt q hh)).2.1 (hp q hq)
    obtain ⟨u, _, w⟩ := b5 q (part_used (o := some z) hfull.owned q hq) hnq
    exact ⟨u, w⟩
  have hch : (decide (t.data = none ∧ data ≠ none) || decide (t.blob = none ∧ blob ≠ none) || decide (t.index = none ∧ index ≠ none)) = true := by
    have got : ∀ {xo : Option Obj} {fo : Option Bytes} {o2 : Option Obj}, (∀ y, xo = some y → ∃ c, saveToFile pages0 P0 y = .ok c ∧ fo = some c) →
        (∀ y c, xo = some y → fo = some c → ∃ z p, o2 = some z ∧ Full s3 sp3 z p c (currentVersion y) ∧ ∀ q ∈ p, q ∈ ps3) →
        xo ≠ none → o2 ≠ none := by
      intro xo fo o2 h1 h2 h3
      obtain ⟨y, rfl⟩ := Option.ne_none_iff_exists'.mp h3
      obtain ⟨c', _, hc'⟩ := h1 y rfl
      obtain ⟨z, p, hz, _⟩ := h2 y c' rfl hc'
      rw [hz]
      exact Option.some_ne_none z
    rcases hmiss with ⟨h1, h2⟩ | ⟨h1, h2⟩ | ⟨h1, h2⟩
    · have := got w1 c.data h1
      simp only at this
      simp [h2, this]
    · have := got w2 c.blob h1
      simp only at this
      simp [h2, this]
    · have := got w3 c.index h1
      simp only at this
      simp [h2, this]
  have blocks : o'.block = od.block := b3
  refine ⟨s', ⟨data, blob, index, some o'⟩, ?_, arrived_of b2 w1 (carry c.data), c.keptData, c.sameData, arrived_of b2 w2 (carry c.blob),
    c.keptBlob, c.sameBlob, arrived_of b2 w3 (carry c.index), c.keptIndex, c.sameIndex, ⟨o', v, rfl, b3, full_carries b2 b4⟩, ?_, sp', b2⟩
  · unfold importTable
    rw [w4, Option.getD_some, rootBytes_take, htext]
    simp only [a1, Outcome.ok_bind, a2, a3, hch, b1]
  · intro q hq k1 k2 k3 k4
    obtain ⟨u, w⟩ := c.keep q hq k1 k2 k3
    rw [(b5 q u k4).2.2, w]

/-! ## Where an import does not carry the table over -/

/-- **Finding (C83).** If a file that was exported empty, or whose copy has disappeared from the
folder, is to replace a file of format 8.0 that is not empty, the import does not return. -/
theorem import_empty_never_returns (e : Env) (fuel : Nat) (junk : Nat → UInt8) (x t : Files) (f : Folder) (s : St) (y o : Obj)
    (hroot : f.root = some (rootBytes junk x)) (hx : x.data = some y) (ht : t.data = some o) (hk : o.kind = .data80) (hl : 0 < o.len)
    (hf : f.data = none ∨ f.data = some []) : ∀ r, importTable e false fuel false f s t ≠ .ok (some r) := by
  intro r hh
  have hg : f.data.getD [] = [] := by rcases hf with h | h <;> rw [h] <;> rfl
  unfold importTable at hh
  rw [hroot, Option.getD_some, rootBytes_take, ht] at hh
  obtain ⟨a, ha, hh⟩ := bind_ok' hh
  unfold importIf at ha
  rw [root_flag junk x 0 (by decide), show x.at 0 = some y from hx] at ha
  simp only [Option.isSome_some, Outcome.ok_bind, if_true] at ha
  obtain ⟨v, hv, ha⟩ := bind_ok' ha
  obtain ⟨b, hb, ha⟩ := bind_ok' ha
  unfold importFile at hb
  simp only [fileFor, Outcome.ok_bind, hg] at hb
  obtain ⟨c, hc, hb⟩ := bind_ok' hb
  cases c with
  | some c => exact set_whole_80_empty_never_returns e fuel s o hk hl c hc
  | none =>
    cases hb
    cases ha
    cases hh

/-- **Finding (C83).** Without the record `root` in the folder what an import does is
undefined: the flags are used although nothing was read into them. -/
theorem import_without_root (e : Env) (ro : Bool) (fuel : Nat) (is838 : Bool) (f : Folder) (s : St) (t : Files)
    (h : f.root = none ∨ f.root = some []) : importTable e ro fuel is838 f s t = .ub := by
  have hg : f.root.getD [] = [] := by rcases h with h | h <;> rw [h] <;> rfl
  unfold importTable
  rw [hg]
  rfl

/-- **Finding (C83).** In a database of format 8.3.8 an import ends by overwriting the length of each
imported file: whatever was stored, the low word of the length that the next one to open the
file finds is the second version number of the exported file. -/
theorem import_838_wrong_length (e : Env) (ro : Bool) (fuel : Nat) (s s' : St) (o : Option Obj) (o' o'' : Obj) (file : Option Bytes)
    (v : Nat × Nat) (hv : v.2 < 2 ^ 32) (h : importFile e ro fuel true s o file v = .ok (some (s', o')))
    (hne : o'.block ≠ 1) (hopen : init s'.pages e.P true o'.block = .ok o'') : o''.len % 2 ^ 32 = v.2 := by
  unfold importFile at h
  obtain ⟨⟨s1, o1⟩, _, h⟩ := bind_ok' h
  obtain ⟨r, _, h⟩ := bind_ok' h
  cases r with
  | none => cases h
  | some r =>
    obtain ⟨s2, o2⟩ := r
    dsimp only at h
    obtain ⟨s3, h3, h⟩ := bind_ok' h
    cases h
    unfold putVersions at h3
    obtain ⟨s4, h4, h3⟩ := bind_ok' h3
    obtain ⟨s5, h5, h3⟩ := bind_ok' h3
    obtain ⟨hp, i1, _, _, ⟨lo, hi, i4, i5, i6⟩, _⟩ := init_838 _ _ _ _ hne hopen
    unfold poke at h3
    split at h3
    · cases h3
    · rename_i p hpg
      split at h3
      · rename_i hle
        cases h3
        simp only at i1
        rw [get_set_eq _ _ _ (getElem?_some_lt hpg)] at i1
        cases i1
        rw [word_splice_in _ _ _ (by rw [length_le32] at hle; omega) hv] at i4
        cases i4
        rw [i6]
        omega
      · cases h3

/-! Non-vacuity. -/

/-- The file of 40 bytes of `sample838` as the records of a table. -/
def sampleX : Files := ⟨some sampleObj838, none, none, none⟩
def sampleF : Folder :=
  ⟨some (rootBytes (fun _ => 0) sampleX), some (List.replicate 32 6 ++ List.replicate 8 5), none, none, none⟩

example : exportTable sample838 32 (fun _ => 0) sampleX ⟨none, none, none, none, none⟩ = .ok sampleF := by decide +kernel

example (ora : Nat → Bool) : ∃ s' t', importTable ⟨4096, ora, 762⟩ false 9 false sampleF (emptyFileDb 3) ⟨some emptyFile, none, none, none⟩ =
      .ok (some (s', t')) ∧ Carries s'.pages 2 (List.replicate 32 6 ++ List.replicate 8 5) (0, 0) := by
  have hx : exportTable sample838 32 (fun _ => 0) sampleX ⟨none, none, none, none, none⟩ = .ok sampleF := by decide +kernel
  obtain ⟨s', t', a1, a2, _, a3, _⟩ := import_export_80_partial ⟨4096, ora, 762⟩ (Nat.le_refl 762) 9 (emptyFileDb 3) (freshSpec 3) sample838 32
    (fun _ => 0) sampleX ⟨some emptyFile, none, none, none⟩ ⟨none, none, none, none, none⟩ sampleF [2] [] [] hx
    (emptyFile_rep _ rfl 3 (by decide) (by decide)) ⟨[], [], rfl, emptyFile_opened 3 (by decide), by intro q hq; simp at hq; subst hq; decide⟩
    rfl rfl (by decide)
    ⟨by
      intro y hy
      cases hy
      refine ⟨by decide, by decide, ?_⟩
      intro c hc
      cases hc
      exact ⟨by unfold Spec.Good80; decide, by decide, (by intro x hx; cases hx; decide), by decide⟩,
     (by intro y hy; cases hy), (by intro y hy; cases hy)⟩
    (by rintro (⟨_, h⟩ | ⟨h, _⟩ | ⟨h, _⟩)
        · cases h
        · exact h rfl
        · exact h rfl) (by decide) ⟨by decide, by decide⟩ (by decide)
  obtain ⟨c, z, b1, b2, b3⟩ := a2 _ rfl
  obtain ⟨z', c1, c2⟩ := a3 _ rfl
  rw [b2] at c1
  cases c1
  have hc : saveToFile sample838 32 sampleObj838 = .ok (List.replicate 32 6 ++ List.replicate 8 5) := by decide +kernel
  rw [hc] at b1
  cases b1
  rw [c2] at b3
  exact ⟨s', t', a1, b3⟩

/-- The same pages with the text `{"T",{"Files",0,0,0}` in the file. -/
def sampleText : List Nat := ascii "{\"T\",{\"Files\",0,0,0}"
def sampleDb : List Bytes :=
  [List.replicate 32 0, List.replicate 32 0,
   [0x1c, 0xfd, 0, 0] ++ List.replicate 12 0 ++ [40, 0, 0, 0, 0, 0, 0, 0] ++ [4, 0, 0, 0] ++ [3, 0, 0, 0],
   (Unicode.Spec.utf16Text sampleText).drop 32 ++ List.replicate 24 0, (Unicode.Spec.utf16Text sampleText).take 32]
def sampleX2 : Files := ⟨some sampleObj838, none, none, some sampleObj838⟩
def sampleF2 : Folder :=
  ⟨some (rootBytes (fun _ => 0) sampleX2), some (Unicode.Spec.utf16Text sampleText), none, none, some (Unicode.Spec.utf16Text sampleText)⟩

example (ora : Nat → Bool) : ∃ s' t' z v, importTable ⟨4096, ora, 762⟩ false 9 false sampleF2 (emptyFileDb 3) ⟨none, none, none, some emptyFile⟩ =
      .ok (some (s', t')) ∧ t'.data = some z ∧ Carries s'.pages z.block (Unicode.Spec.utf16Text sampleText) (0, 0) ∧
      Carries s'.pages 2 (Unicode.Spec.utf16Text (ascii "{\"T\"," ++ filesSection z.block 0 0)) v := by
  have hx : exportTable sampleDb 32 (fun _ => 0) sampleX2 ⟨none, none, none, none, none⟩ = .ok sampleF2 := by decide +kernel
  obtain ⟨s', t', a1, a2, _, _, _, a5, _, _, a8, _, ⟨d, v, d1, d2, d3⟩, _⟩ := import_creates_80_partial ⟨4096, ora, 762⟩ (Nat.le_refl 762) 9 (emptyFileDb 3) (freshSpec 3) sampleDb 32
    (fun _ => 0) sampleX2 ⟨none, none, none, some emptyFile⟩ ⟨none, none, none, none, none⟩ sampleF2 [] [] [] [2] sampleObj838 emptyFile
    sampleText (ascii "{\"T\",") hx
    (emptyFile_rep _ rfl 3 (by decide) (by decide)) rfl rfl rfl rfl ⟨[], [], rfl, emptyFile_opened 3 (by decide), by intro q hq; simp at hq; subst hq; decide⟩
    (by decide)
    ⟨by
      intro y hy
      cases hy
      refine ⟨by decide, by decide, ?_⟩
      intro c hc
      cases hc
      exact ⟨by unfold Spec.Good80; decide, by decide, (by intro x hx; cases hx), by decide⟩,
     (by intro y hy; cases hy), (by intro y hy; cases hy)⟩
    (Or.inl ⟨by decide, rfl⟩) rfl (by decide) (by decide) rfl (by decide)
    ⟨⟨ascii "0,0,0}", by decide⟩, by
      intro a b hab
      have hl := congrArg List.length hab
      rcases Nat.lt_or_ge a.length 5 with h | h
      · exfalso
        have h1 : sampleText[a.length]? = some 123 := by
          rw [hab, List.getElem?_append_right (Nat.le_refl _), Nat.sub_self]
          rfl
        have h2 : sampleText[a.length + 1]? = some 34 := by
          rw [hab, List.getElem?_append_right (by omega), Nat.add_sub_cancel_left]
          rfl
        have h3 : sampleText[a.length + 2]? = some 70 := by
          rw [hab, List.getElem?_append_right (by omega), Nat.add_sub_cancel_left]
          rfl
        generalize a.length = n at *
        have : n = 0 ∨ n = 1 ∨ n = 2 ∨ n = 3 ∨ n = 4 := by omega
        revert h3
        rcases this with rfl | rfl | rfl | rfl | rfl <;> decide
      · exact h⟩
    (by decide) (by decide) (by decide) ⟨by decide, by decide⟩ (by decide)
  obtain ⟨c, z, b1, b2, b3⟩ := a2 _ rfl
  have hc : saveToFile sampleDb 32 sampleObj838 = .ok (Unicode.Spec.utf16Text sampleText) := by decide +kernel
  rw [hc] at b1
  cases b1
  rw [b2, a5 rfl, a8 rfl, d2] at d3
  exact ⟨s', t', z, v, a1, b2, b3, d3⟩

/-- An import into the file of `sample838`, 40 bytes long, with contents of 40 bytes and the
versions (5, 7): the file is then 7 bytes long. -/
example : (importFile smallEnv false 10 true ⟨sample838, smallFree, 0⟩ (some sampleObj838) (some (List.replicate 40 9)) (5, 7)).bind (fun r =>
    match r with
    | some (s, o) => (init s.pages 32 true o.block).bind (fun o => .ok o.len)
    | none => .ub) = .ok 7 := by decide +kernel

end Verif.Object.Transfer
