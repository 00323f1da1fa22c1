import Verif.Object.WholeLemmas

/-! # Property theorems: replacing the whole contents of an object (C72) -/

namespace Verif.Object
open Verif

/-- The file with header page `h` begins with the bytes `buf`. -/
def Spec.Begins (pages : List Bytes) (P : Nat) (sh : Spec.Shape) (h : Nat) (buf : Bytes) : Prop :=
  ∀ i, i < buf.length → Spec.byteAt pages P sh h i = buf[i]?

/-- The lengths for which format 8.0 stores everything: all except those whose last
allocation table, not being the first, lists one page only. -/
def Spec.Good80 (n : Nat) : Prop :=
  n ≤ 1023 * 4096 ∨ n % (1023 * 4096) = 0 ∨ 4096 < n % (1023 * 4096)

/-- The copying loops on a whole file of the right length. -/
theorem put_whole_80 (e : Env) (s : St) (sp : FreeSpec.State) (o : Obj) (tabs datas : List Nat) (hr : Rep e s sp)
    (ho : Opened80 s o tabs datas) (hw : Within sp o.block tabs datas) (buf : Bytes) (hb : buf ≠ [])
    (hlen : o.len = buf.length) :
    ∃ s' o', putWhole e s o buf = .ok (s', o') ∧ Rep e s' sp ∧ Opened80 s' o' tabs datas ∧ o'.len = o.len ∧
      o'.block = o.block ∧ (∀ q, q ∉ datas → q ≠ o.block → s'.pages[q]? = s.pages[q]?) ∧
      (∀ i, i < Spec.stored80 buf.length → Spec.byteAt s'.pages 4096 Spec.file80 o.block i = buf[i]?) ∧
      (∀ i, Spec.stored80 buf.length ≤ i → i < buf.length →
        Spec.byteAt s'.pages 4096 Spec.file80 o.block i = Spec.byteAt s.pages 4096 Spec.file80 o.block i) := by
  have hpos : 0 < buf.length := List.length_pos_iff.mpr hb
  have hdl := ho.nDatas
  have hnd := ho.file.distinct
  rw [List.nodup_cons, List.nodup_append] at hnd
  have hex : ∀ q ∈ datas, q < s.pages.length := fun q hq => (used_facts hr (hw q (by simp [hq]))).1
  have htab : ∀ (k t : Nat), tabs[k]? = some t → t ∉ datas ∧ ∃ tp, s.pages[t]? = some tp ∧
      Spec.word tp 0 = some (min 1023 (datas.length - 1023 * k)) ∧
      ∀ j (h : 1023 * k + j < datas.length), j < 1023 → Spec.word tp (4 + 4 * j) = some datas[1023 * k + j] := by
    intro k t hk
    obtain ⟨tp, a, b⟩ := ho.file.counts k t hk
    refine ⟨fun hh => hnd.2.2.2 t (List.mem_of_getElem? hk) t hh rfl, tp, a, b, ?_⟩
    intro j h hj
    obtain ⟨t', tp', c1, c2, c3⟩ := ho.file.entry _ h
    rw [show (1023 * k + j) / 1023 = k by omega, hk] at c1
    cases c1
    rw [a] at c2; cases c2
    rw [show (1023 * k + j) % 1023 = j by omega] at c3
    exact c3
  obtain ⟨s1, hs1, hwr⟩ := wholeTabs80_ok e hr.P tabs datas hnd.2.2.1 tabs.length s 0 0 buf hr.full hex htab hb
    (by rw [hdl, hlen]; omega) (by omega) (by rw [ho.nTabs, hdl, hlen])
  have hrep1 : Rep e s1 sp := rep_frame hr hwr.fr hwr.len hwr.full
    (fun q hq => hwr.frame q (fun hh => hq (hw q (by simp [hh]))))
  obtain ⟨hp, h1, h2, h3⟩ := ho.header
  have hhd : o.block ∉ datas := fun hh => hnd.1 (by simp [hh])
  have hp1 : s1.pages[o.block]? = some hp := by rw [hwr.frame _ hhd]; exact h1
  have hl : hp.length = 4096 := hr.full _ (List.mem_of_getElem? h1)
  obtain ⟨s', hq, hq', v1, v2, v3, v4, v5, v6, _⟩ := writeVersion_ok e s1 o 4096 (by decide) (getElem?_some_lt hp1) hrep1.full
  rw [hp1] at v2; cases v2
  simp only [ho.kind, true_or, if_true] at v6
  have hp2 : s'.pages[o.block]? = some hq' := by rw [v4]; exact get_set_eq _ _ _ (getElem?_some_lt hp1)
  have hfr : ∀ q, q ≠ o.block → s'.pages[q]? = s1.pages[q]? := by
    intro q hq
    rw [v4, get_set_ne _ _ _ _ (Ne.symm hq)]
  have hfile : Spec.File80 s'.pages o.block tabs datas := by
    refine file80_header ho.file h1 hp2 (fun i hi => v6 i (by omega)) ?_
    intro q hq
    rw [hfr q (Ne.symm ((head_ne_tabs ho.file).1 q hq)), hwr.frame q (fun hh => hnd.2.2.2 q hq q hh rfl)]
  have hb1 : ∀ i, i < buf.length → Spec.byteAt s'.pages 4096 Spec.file80 o.block i = fileByte s1.pages 4096 datas i := by
    intro i hi
    have hi' : i / 4096 < datas.length := by omega
    unfold Spec.byteAt fileByte
    rw [dataPage_file80 hfile _ hi', List.getElem?_eq_getElem hi']
    simp only [Option.bind_eq_bind, Option.bind_some]
    rw [hfr _ (fun hc => hhd (hc ▸ List.getElem_mem hi'))]
  have hb2 : ∀ i, i < buf.length → Spec.byteAt s.pages 4096 Spec.file80 o.block i = fileByte s.pages 4096 datas i := by
    intro i hi
    have hi' : i / 4096 < datas.length := by omega
    unfold Spec.byteAt fileByte
    rw [dataPage_file80 ho.file _ hi', List.getElem?_eq_getElem hi']
    rfl
  have hle : Spec.stored80 buf.length ≤ buf.length := by
    unfold Spec.stored80; split <;> omega
  have htl : (buf.take (Spec.stored80 buf.length)).length = Spec.stored80 buf.length := by
    rw [List.length_take]; omega
  refine ⟨s', { o with recorded := true }, ?_, rep_set hrep1 (hw _ (by simp)) (by rw [v3]; exact hl) v5 v4, ?_, rfl, rfl, ?_, ?_, ?_⟩
  · have hs1' : wholeTabs80 e o.blocks o.numblocks 0 0 buf s = .ok s1 := by
      rw [ho.blocks, ho.numblocks]; exact hs1
    unfold putWhole
    simp only [ho.kind]
    simp only [hs1', Outcome.ok_bind]
    rw [v1]
    simp only [ho.kind]
  · refine ⟨ho.kind, ho.blocks, ho.numblocks, hdl, ho.nTabs, ⟨hq', hp2, ?_, ?_⟩, hfile⟩
    · rw [← h2]
      apply List.ext_getElem?
      intro i
      rw [List.getElem?_take, List.getElem?_take]
      split
      · exact v6 i (by omega)
      · rfl
    · rw [← h3]
      exact word_of_get _ _ _ (fun i _ _ => v6 i (by omega))
  · intro q hq hqh
    rw [hfr q hqh, hwr.frame q hq]
  · intro i hi
    rw [hb1 i (by omega)]
    have := hwr.bytes i (by omega)
    rw [Nat.mul_zero, Nat.zero_mul, Nat.zero_add] at this
    rw [this, List.getElem?_take_of_lt hi]
  · intro i hi hi2
    rw [hb1 i hi2, hb2 i hi2]
    refine hwr.after i ?_
    rw [htl]
    unfold Spec.stored80 at hi ⊢
    split at hi <;> rename_i hcase
    · rw [if_pos hcase]; omega
    · omega

/-- What replacing the contents by `buf` does to a database of format 8.0, whatever the old
length: the object has the new length and is whole, all other objects are untouched;
of the contents the first `stored80` bytes are those of `buf`, and the rest, where the
old length covers it, is what was there before. -/
theorem set_whole_core (e : Env) (hslack : 3 * 254 ≤ e.slack) (fuel : Nat) (s : St) (sp : FreeSpec.State) (o : Obj)
    (tabs datas : List Nat) (buf : Bytes) (k : Nat) (hr : Rep e s sp) (ho : Opened80 s o tabs datas) (hw : Within sp o.block tabs datas)
    (hb : buf ≠ []) (h1 : buf.length ≤ 254 * (1023 * 4096)) (h2 : o.len ≤ 254 * (1023 * 4096))
    (hsm : sp.total + 2 * ((buf.length + 4095) / 4096) ≤ 2 ^ 32) (hbu : Budget sp (2 * datas.length + k)) (hfuel : datas.length < fuel) :
    ∃ s' o' sp' tabs' datas', setWhole e false fuel s o buf = .ok (some (s', o')) ∧ Rep e s' sp' ∧
      Opened80 s' o' tabs' datas' ∧ Within sp' o.block tabs' datas' ∧ o'.len = buf.length ∧ o'.block = o.block ∧
      (∀ i, i < Spec.stored80 buf.length → Spec.byteAt s'.pages 4096 Spec.file80 o.block i = buf[i]?) ∧
      (∀ i, Spec.stored80 buf.length ≤ i → i < buf.length → i < o.len →
        Spec.byteAt s'.pages 4096 Spec.file80 o.block i = Spec.byteAt s.pages 4096 Spec.file80 o.block i) ∧
      (∀ q ∈ sp.used, q ∉ o.block :: (tabs ++ datas) → q ∈ sp'.used ∧ q ∉ o.block :: (tabs' ++ datas') ∧
        s'.pages[q]? = s.pages[q]?) ∧ Budget sp' k ∧ sp'.total ≤ sp.total + 2 * ((buf.length + 4095) / 4096) := by
  have hpos : 0 < buf.length := List.length_pos_iff.mpr hb
  have ho' : Opened80 s { o with data := none } tabs datas :=
    ⟨ho.kind, ho.blocks, ho.numblocks, ho.nDatas, ho.nTabs, ho.header, ho.file⟩
  obtain ⟨s1, o1, sp', tabs', datas', a1, a2, a3, a4, a5, a6, a7, a8, a9, a10⟩ :=
    set_len_80_more e hslack fuel s sp { o with data := none } tabs datas buf.length k hr ho' hw hpos h1 h2 hsm hbu hfuel
  simp only at a4 a6 a7 a8
  have hw1 : Within sp' o1.block tabs' datas' := by rw [a6]; exact a4
  obtain ⟨s2, o2, b1, b2, b3, b4, b5, b6, b7, b8⟩ := put_whole_80 e s1 sp' o1 tabs' datas' a2 a3 hw1 buf hb a5
  rw [a6] at b5 b6 b7 b8
  refine ⟨s2, o2, sp', tabs', datas', ?_, b2, b3, a4, by rw [b4, a5], b5, b7, ?_, ?_, a9, a10⟩
  · unfold setWhole
    simp only [ho.kind]
    rw [if_neg (by simp)]
    simp only [ho.kind] at a1
    simp only [a1, Outcome.ok_bind, b1]
  · intro i hi hi2 hi3
    rw [b8 i hi hi2, a7 i (by omega)]
  · intro q hq hno
    obtain ⟨c1, c2, c3⟩ := a8 q hq hno
    refine ⟨c1, c2, ?_⟩
    simp only [List.mem_cons, List.mem_append, not_or] at c2
    rw [b6 q c2.2.2 c2.1, c3]

theorem good_stored (n : Nat) (h : Spec.Good80 n) : Spec.stored80 n = n := by
  unfold Spec.Good80 at h
  unfold Spec.stored80
  rw [if_neg (by omega)]

/-- **C72, format 8.0.** Whatever the old contents and the old and new length, after the call
the object has the length of the new contents and consists of exactly their bytes; every
page of every other object is as it was, and the object can be changed again. Missing: the
lengths of `set_whole_80_loses_last_page`, empty contents, and files that need more than
254 tables. -/
theorem set_whole_80_partial (e : Env) (hslack : 3 * 254 ≤ e.slack) (fuel : Nat) (s : St) (sp : FreeSpec.State) (o : Obj)
    (tabs datas : List Nat) (buf : Bytes) (hr : Rep e s sp) (ho : Opened80 s o tabs datas) (hw : Within sp o.block tabs datas)
    (hb : buf ≠ []) (hgood : Spec.Good80 buf.length) (h1 : buf.length ≤ 254 * (1023 * 4096)) (h2 : o.len ≤ 254 * (1023 * 4096))
    (hsm : sp.total + 2 * ((buf.length + 4095) / 4096) ≤ 2 ^ 32) (hbu : Budget sp (2 * datas.length)) (hfuel : datas.length < fuel) :
    ∃ s' o' sp' tabs' datas', setWhole e false fuel s o buf = .ok (some (s', o')) ∧ Rep e s' sp' ∧
      Opened80 s' o' tabs' datas' ∧ Within sp' o.block tabs' datas' ∧ o'.len = buf.length ∧ o'.block = o.block ∧
      Spec.Begins s'.pages 4096 Spec.file80 o.block buf ∧
      (∀ q ∈ sp.used, q ∉ o.block :: (tabs ++ datas) → q ∈ sp'.used ∧ q ∉ o.block :: (tabs' ++ datas') ∧
        s'.pages[q]? = s.pages[q]?) := by
  obtain ⟨s', o', sp', tabs', datas', a1, a2, a3, a4, a5, a6, a7, _, a9, _⟩ :=
    set_whole_core e hslack fuel s sp o tabs datas buf 0 hr ho hw hb h1 h2 hsm (by simpa using hbu) hfuel
  rw [good_stored _ hgood] at a7
  exact ⟨s', o', sp', tabs', datas', a1, a2, a3, a4, a5, a6, a7, a9⟩

/-- **Finding (C72).** For the other lengths — those whose last allocation table, not being the
first, lists a single page — the call returns normally, but the last page keeps what it
held: the bytes given for it are lost. -/
theorem set_whole_80_loses_last_page (e : Env) (hslack : 3 * 254 ≤ e.slack) (fuel : Nat) (s : St) (sp : FreeSpec.State) (o : Obj)
    (tabs datas : List Nat) (buf : Bytes) (hr : Rep e s sp) (ho : Opened80 s o tabs datas) (hw : Within sp o.block tabs datas)
    (hbad : ¬ Spec.Good80 buf.length) (hlen : buf.length ≤ o.len) (h2 : o.len ≤ 254 * (1023 * 4096))
    (hsm : sp.total + 2 * ((buf.length + 4095) / 4096) ≤ 2 ^ 32) (hbu : Budget sp (2 * datas.length)) (hfuel : datas.length < fuel) :
    ∃ s' o', setWhole e false fuel s o buf = .ok (some (s', o')) ∧ o'.len = buf.length ∧
      0 < buf.length % (1023 * 4096) ∧ buf.length % (1023 * 4096) ≤ 4096 ∧
      (∀ i, i < buf.length - buf.length % (1023 * 4096) → Spec.byteAt s'.pages 4096 Spec.file80 o.block i = buf[i]?) ∧
      (∀ i, buf.length - buf.length % (1023 * 4096) ≤ i → i < buf.length →
        Spec.byteAt s'.pages 4096 Spec.file80 o.block i = Spec.byteAt s.pages 4096 Spec.file80 o.block i) := by
  unfold Spec.Good80 at hbad
  have hb : buf ≠ [] := by rintro rfl; simp at hbad
  have hst : Spec.stored80 buf.length = buf.length - buf.length % (1023 * 4096) := by
    unfold Spec.stored80; rw [if_pos (by omega)]
  obtain ⟨s', o', sp', tabs', datas', a1, a2, a3, a4, a5, a6, a7, a8, a9⟩ :=
    set_whole_core e hslack fuel s sp o tabs datas buf 0 hr ho hw hb (by omega) h2 hsm (by simpa using hbu) hfuel
  rw [hst] at a7 a8
  exact ⟨s', o', a1, a5, by omega, by omega, a7, fun i h3 h4 => a8 i h3 h4 (by omega)⟩

/-- The finding is met: in a database with one empty file, whatever the cache does, there are
contents of 1023 pages and 100 bytes that the file does not hold after they were stored. -/
theorem set_whole_80_wrong (ora : Nat → Bool) : ∃ (s : St) (o : Obj) (tabs datas : List Nat) (buf : Bytes) (s' : St) (o' : Obj),
    Opened80 s o tabs datas ∧ o.len = 4190308 ∧ buf.length = 4190308 ∧
    setWhole ⟨4096, ora, 762⟩ false 2000 s o buf = .ok (some (s', o')) ∧
    ¬ Spec.Begins s'.pages 4096 Spec.file80 o.block buf := by
  obtain ⟨s1, o1, sp1, tabs, datas, a1, a2, a3, a4, a5, a6, a7, a8, a9, a10, a11⟩ :=
    set_len_grow_80_partial ⟨4096, ora, 762⟩ (Nat.le_refl 762) 9 (emptyFileDb 3) (freshSpec 3) emptyFile [] [] 4190308
      (emptyFile_rep _ rfl 3 (by decide) (by decide)) (emptyFile_opened 3 (by decide))
      (by intro q hq; simp at hq; subst hq; decide) (by decide) (by decide) (by decide)
  simp only [List.nil_append] at a3 a6
  have hdl : datas.length = 1024 := by rw [a3.nDatas, a4]
  have htl : tabs.length = 2 := by rw [a3.nTabs, hdl]
  have hfree : sp1.free.length = 0 := Nat.le_zero.mp a11
  have htot : sp1.total = 1031 := by
    have e2 := stores_used a2
    have e3 := a7.length_eq
    rw [List.length_append, List.length_append, hdl, htl, show (freshSpec 3).used.length = 3 from rfl] at e3
    rw [a10, hfree, e3, show (freshSpec 3).own.length = 0 from rfl] at e2
    exact e2
  have hw1 : Within sp1 o1.block tabs datas := by rw [a5]; exact a6
  obtain ⟨x, hx⟩ : ∃ x, Spec.byteAt s1.pages 4096 Spec.file80 o1.block 4190307 = some x := by
    have hk : 4190307 / 4096 < datas.length := by omega
    have hm : datas[4190307 / 4096] ∈ datas := List.getElem_mem hk
    have hlt := (used_facts a2 (a6 datas[4190307 / 4096] (List.mem_cons_of_mem _ (List.mem_append_right _ hm)))).1
    have hl := a2.full _ (List.getElem_mem hlt)
    unfold Spec.byteAt
    rw [dataPage_file80 a3.file _ hk]
    simp only [Option.bind_eq_bind, Option.bind_some]
    rw [List.getElem?_eq_getElem hlt]
    simp only [Option.bind_some]
    exact ⟨_, List.getElem?_eq_getElem (by rw [hl]; decide)⟩
  have hbl : (List.replicate 4190308 (x + 1)).length = 4190308 := List.length_replicate
  have hbg : (List.replicate 4190308 (x + 1))[4190307]? = some (x + 1) := by
    rw [List.getElem?_replicate, if_pos (by decide)]
  generalize List.replicate 4190308 (x + 1) = buf at hbl hbg
  obtain ⟨s', o', b1, b2, b3, b4, b5, b6⟩ := set_whole_80_loses_last_page ⟨4096, ora, 762⟩ (Nat.le_refl 762) 2000 s1 sp1 o1
    tabs datas buf a2 a3 hw1 (by rw [hbl]; unfold Spec.Good80; decide) (by omega) (by omega) (by rw [htot, hbl]; decide)
    ⟨by rw [a10]; decide, by rw [hfree, hdl]; decide⟩ (by omega)
  refine ⟨s1, o1, tabs, datas, buf, s', o', a3, a4, hbl, b1, ?_⟩
  intro hB
  have h1 := hB 4190307 (by omega)
  rw [b6 4190307 (by omega) (by omega), hx, hbg] at h1
  have h2 : x = x + 1 := Option.some.inj h1
  have h3 := congrArg UInt8.toNat h2
  rw [UInt8.toNat_add] at h3
  have := x.toNat_lt
  simp at h3
  omega

/-- **Finding (C72).** An object of format 8.0 that is not empty cannot be emptied: the call
does not return. -/
theorem set_whole_80_empty_never_returns (e : Env) (fuel : Nat) (s : St) (o : Obj) (hk : o.kind = .data80) (hl : 0 < o.len) :
    ∀ r, setWhole e false fuel s o [] ≠ .ok (some r) := by
  intro r hh
  unfold setWhole at hh
  rw [if_neg (by simp)] at hh
  simp only [hk] at hh
  obtain ⟨x, hx, hh⟩ := bind_ok' hh
  cases x with
  | none => cases hh
  | some y => exact set_len_zero_never_returns e fuel s _ (by exact hl) y hx

/-- **C72.** A read-only database, and the file of free pages, refuse. -/
theorem set_whole_refused (e : Env) (fuel : Nat) (s : St) (o : Obj) (buf : Bytes) :
    setWhole e true fuel s o buf = .throw ∧
    ∀ ro, o.kind = .free80 ∨ o.kind = .free838 → setWhole e ro fuel s o buf = .throw := by
  refine ⟨rfl, ?_⟩
  intro ro hk
  unfold setWhole
  rcases hk with h | h <;> rw [h] <;> simp

/-! ## Format 8.3.8 -/

theorem whole_written (e : Env) (s s1 : St) (h : Nat) (o : Obj) (sh : Spec.Shape)
    (hsh : sh = .direct 24 ∨ ∃ per hdr, sh = .tables 24 per hdr) (D : List Nat) (hp : Bytes) (hP : 20 ≤ e.P)
    (i1 : s.pages[h]? = some hp) (i8 : o.block = h) (hown : Spec.Own s.pages sh h D) (buf : Bytes)
    (hD : buf.length ≤ D.length * e.P) (hw : Filled s s1 e.P D 0 buf) (hk : o.kind = .data838) :
    ∃ s', writeVersion e s1 o = .ok (s', { o with recorded := true }) ∧ Spec.Begins s'.pages e.P sh h buf ∧
      Spec.Own s'.pages sh h D ∧ (∀ q, q ∉ D → q ≠ h → s'.pages[q]? = s.pages[q]?) ∧ s'.fr = s.fr ∧
      s'.pages.length = s.pages.length ∧ (∀ p ∈ s'.pages, p.length = e.P) ∧
      (∃ hp', s'.pages[h]? = some hp' ∧ ∀ i, i < 4 ∨ 12 ≤ i → hp'[i]? = hp[i]?) := by
  have hblk : o.block < s1.pages.length := by rw [hw.len, i8]; exact getElem?_some_lt i1
  obtain ⟨s', hp1, hp', v1, v2, v3, v4, v5, v6, v7, v8⟩ := writeVersion_ok e s1 o e.P hP hblk hw.full
  simp only [hk, reduceCtorEq, or_self, if_false] at v6
  have hhD : h ∉ D := hown.header
  have hhp1 : s1.pages[h]? = some hp := by rw [hw.frame h hhD, i1]
  have hpp : hp1 = hp := by
    rw [i8, hhp1] at v2; exact (Option.some.inj v2).symm
  subst hpp
  have hframe : ∀ q, q ≠ h → s'.pages[q]? = s1.pages[q]? := by
    intro q hq
    rw [v4, get_set_ne]
    rw [i8]; exact Ne.symm hq
  have hh' : s'.pages[h]? = some hp' := by
    rw [v4, i8, get_set_eq _ _ _ (by rw [← i8]; exact hblk)]
  have hown' : Spec.Own s'.pages sh h D :=
    own_transfer hown 24 hsh i1 hh' (fun i hi => v6 i (by omega))
      (fun q hq hqh => by rw [hframe q hqh, hw.frame q hq])
      (by rw [v4, List.length_set, hw.len]; exact Nat.le_refl _)
  refine ⟨s', v1, ?_, hown', ?_, v5.trans hw.fr, ?_, ?_, hp', hh', fun i hi => v6 i (by omega)⟩
  · intro i hi
    have hiD : i / e.P < D.length := (Nat.div_lt_iff_lt_mul (by omega)).mpr (by omega)
    have hb := hw.bytes i hi
    rw [Nat.zero_mul, Nat.zero_add] at hb
    rw [byteAt_own hown' e.P i hiD, ← hb]
    unfold fileByte
    rw [List.getElem?_eq_getElem hiD]
    simp only [Option.bind_some]
    rw [hframe]
    intro hc
    exact hhD (hc ▸ List.getElem_mem hiD)
  · intro q hq hqh
    rw [hframe q hqh, hw.frame q hq]
  · rw [v4, List.length_set, hw.len]
  · rw [v4]
    exact set_lengths _ _ _ _ hw.full (by rw [v3]; exact hw.full _ (List.mem_of_getElem? hhp1))

/-- **C72, format 8.3.8.** Contents of the same length as the old ones replace them, byte for
byte, and nothing else in the database changes but the version on the header page.
Missing: other lengths (C25). -/
theorem set_whole_838_partial (e : Env) (hP : 24 ≤ e.P) (s : St) (h : Nat) (o : Obj) (hne : h ≠ 1)
    (ho : init s.pages e.P true h = .ok o) (hf : ∀ p ∈ s.pages, p.length = e.P) (D : List Nat)
    (hown : Spec.Own s.pages (if o.fatlevel = 0 then Spec.file838one else Spec.file838two e.P) h D)
    (hD : o.len ≤ D.length * e.P)
    (hDb : D.length ≤ if o.fatlevel = 0 then o.blocks.length else o.blocks.length * (e.P / 4))
    (buf : Bytes) (hb : buf ≠ []) (hlen : buf.length = o.len) (fuel : Nat) :
    ∃ s' o', setWhole e false fuel s o buf = .ok (some (s', o')) ∧ o' = { o with recorded := true } ∧
      Spec.Begins s'.pages e.P (if o.fatlevel = 0 then Spec.file838one else Spec.file838two e.P) h buf ∧
      (∀ q, q ∉ D → q ≠ h → s'.pages[q]? = s.pages[q]?) ∧ s'.pages.length = s.pages.length ∧
      (∃ hp hp', s.pages[h]? = some hp ∧ s'.pages[h]? = some hp' ∧ ∀ i, i < 4 ∨ 12 ≤ i → hp'[i]? = hp[i]?) := by
  obtain ⟨hp, i1, i2, i3, i4, i5, i6, i7, i8, i9⟩ := init_838 s.pages e.P h o hne ho
  have hpos : 0 < buf.length := List.length_pos_iff.mpr hb
  have hP0 : 0 < e.P := by omega
  have hDpos : 0 < D.length := by
    rcases Nat.eq_zero_or_pos D.length with h0 | h0
    · rw [h0] at hD; omega
    · exact h0
  have hoo : ({ o with data := none } : Obj) = o := by rw [← i3]
  have head : ∀ r, putWhole e s o buf = .ok r → setWhole e false fuel s o buf = .ok (some r) := by
    intro r hr
    have hsl : setLen838 e fuel s o buf.length = .ok (some (s, o)) := by
      unfold setLen838; rw [if_pos hlen.symm]
    unfold setWhole
    rw [if_neg (by simp), hoo]
    simp only [i2, hsl, Outcome.ok_bind, hr]
  by_cases hfat : o.fatlevel = 0
  · rw [if_pos hfat] at hown hDb ⊢
    have hbl : ∀ j (hj : j < D.length), o.blocks[j]? = some D[j] := by
      intro j hj
      have h1 := hown.page j hj
      unfold Spec.dataPage at h1
      simp only [Spec.file838one, i1, Option.bind_eq_bind, Option.bind_some] at h1
      rw [i8 j (by omega)]; exact h1
    obtain ⟨s1, hs1, hw⟩ := wholeOne_ok e hP0 D o.blocks hown.nodup hbl buf.length s 0
      buf hf hown.exists_ (Nat.le_refl _) (by omega)
    obtain ⟨s', v1, w1, w2, w3, w4, w5, w6, hp', w7⟩ :=
      whole_written e s s1 h o _ (Or.inl rfl) D hp (by omega) i1 i9 hown buf (by omega) hw i2
    refine ⟨s', _, head _ ?_, rfl, w1, w3, w5, hp, hp', i1, w7⟩
    unfold putWhole
    simp only [i2]
    rw [if_neg (by simp [hfat])]
    simp only [hs1, Outcome.ok_bind]
    rw [v1]; simp only [i2]
  · rw [if_neg hfat] at hown hDb ⊢
    have hper : 0 < e.P / 4 := by omega
    have htab : ∀ j (hj : j < D.length), ∃ t tp, o.blocks[j / (e.P / 4)]? = some t ∧ t ∉ D ∧ s.pages[t]? = some tp ∧
        Spec.word tp (4 * (j % (e.P / 4))) = some D[j] := by
      intro j hj
      have h1 := hown.page j hj
      unfold Spec.dataPage at h1
      simp only [Spec.file838two, i1, Option.bind_eq_bind, Option.bind_some, Option.bind_eq_some_iff] at h1
      obtain ⟨t, ht, tp, htp, hw⟩ := h1
      refine ⟨t, tp, ?_, ?_, htp, by simpa using hw⟩
      · rw [i8 _ ?_]
        · exact ht
        · rw [← i7]; exact (Nat.div_lt_iff_lt_mul hper).mpr (by omega)
      · refine (hown.tables j t hj ?_).1
        unfold Spec.tablePage
        simp only [Spec.file838two, i1, Option.bind_eq_bind, Option.bind_some, ht]
    obtain ⟨t, tp, ht1, ht2, ht3, ht4⟩ := htab 0 hDpos
    rw [Nat.zero_div] at ht1
    obtain ⟨s1, hs1, hw⟩ := wholeTwo_ok e hP0 hper D o.blocks hown.nodup buf.length s
      0 t buf hf hown.exists_ htab (Nat.le_refl _) (by omega) (fun _ => by rw [Nat.zero_div]; exact ht1)
    rw [Nat.zero_mod, Nat.zero_div] at hs1
    obtain ⟨s', v1, w1, w2, w3, w4, w5, w6, hp', w7⟩ :=
      whole_written e s s1 h o _ (Or.inr ⟨_, _, rfl⟩) D hp (by omega) i1 i9 hown buf (by omega) hw i2
    refine ⟨s', _, head _ ?_, rfl, w1, w3, w5, hp, hp', i1, w7⟩
    unfold putWhole
    simp only [i2]
    rw [if_pos hfat]
    simp only [(idx_ok _ _ _).mpr ht1, (getPage_ok _ _ _).mpr ht3, Outcome.ok_bind, hs1]
    rw [v1]; simp only [i2]

/-- **Finding (C72).** An empty object of format 8.3.8 cannot be given contents that fit in one
level. -/
theorem set_whole_838_from_empty (e : Env) (fuel : Nat) (s : St) (o : Obj) (buf : Bytes) (hp : Bytes)
    (hk : o.kind = .data838) (h1 : s.pages[o.block]? = some hp) (hl : 24 ≤ hp.length) (he : o.len = 0) (hn : o.numblocks = 0)
    (hb : buf ≠ []) (hmax : buf.length ≤ maxLen838 e.P) (hone : (buf.length + e.P - 1) / e.P ≤ e.P / 4 - 6) (hP : 0 < e.P) :
    setWhole e false fuel s o buf = .ub := by
  unfold setWhole
  rw [if_neg (by simp)]
  simp only [hk]
  have := set_len_838_from_empty e fuel s { o with data := none } buf.length hp h1 hl he hn
    (List.length_pos_iff.mpr hb) hmax hone hP
  simp only [hk] at this
  rw [this]
  rfl

/-! Non-vacuity: contents for the empty file of `emptyFileDb`; new contents for the files of
`sample838` and `sample838two`; a length the loops do not handle. -/

example (ora : Nat → Bool) : ∃ s' o', setWhole ⟨4096, ora, 762⟩ false 9 (emptyFileDb 3) emptyFile (List.replicate 5000 7) =
      .ok (some (s', o')) ∧ o'.len = 5000 ∧ Spec.byteAt s'.pages 4096 Spec.file80 2 4999 = some 7 := by
  have hl : (List.replicate 5000 (7 : UInt8)).length = 5000 := List.length_replicate
  have hg : (List.replicate 5000 (7 : UInt8))[4999]? = some 7 := by
    rw [List.getElem?_replicate]; rfl
  generalize List.replicate 5000 (7 : UInt8) = buf at hl hg
  obtain ⟨s', o', sp', tabs, datas, a1, a2, a3, a4, a5, a6, a7, a8⟩ :=
    set_whole_80_partial ⟨4096, ora, 762⟩ (Nat.le_refl 762) 9 (emptyFileDb 3) (freshSpec 3) emptyFile [] [] buf
      (emptyFile_rep _ rfl 3 (by decide) (by decide)) (emptyFile_opened 3 (by decide))
      (by intro q hq; simp at hq; subst hq; decide) (by rintro rfl; simp at hl) (by rw [hl]; left; decide)
      (by rw [hl]; decide) (by decide) (by rw [hl]; decide) ⟨by decide, by decide⟩ (by decide)
  exact ⟨s', o', a1, a5.trans hl, (a7 4999 (by rw [hl]; decide)).trans hg⟩

example : (setWhole smallEnv false 10 ⟨sample838, smallFree, 0⟩ sampleObj838 (List.replicate sampleObj838.len 9)).bind (fun r =>
    match r with | some (s, o) => getPart s.pages 32 o 30 6 | none => .ub) = .ok [9, 9, 9, 9, 9, 9] := by decide
example : (setWhole smallEnv false 10 ⟨sample838two, smallFree, 0⟩ sampleObj838two (List.replicate sampleObj838two.len 9)).bind
    (fun r => match r with | some (s, o) => getPart s.pages 32 o 30 6 | none => .ub) = .ok [9, 9, 9, 9, 9, 9] := by decide

example : ¬ Spec.Good80 (1023 * 4096 + 100) ∧ Spec.Good80 (1023 * 4096) ∧ Spec.Good80 (1024 * 4096 + 1) := by
  unfold Spec.Good80; decide

end Verif.Object
