import Verif.Tables.Lemmas

/-! # Property theorems: taking tables off the list and putting them back (C88) -/

namespace Verif.Tables
open Verif Object Spec

theorem holds_names {e : Env} {v : Db.Ver} {s : St} {sp : FreeSpec.State} {root : Obj} {ps : List Nat} {lang : Bytes} {bs : List Nat}
    (hr : Rep e s sp) (h : Spec.Holds v s sp root ps lang bs) : Names v s.pages bs := by
  obtain ⟨tabs, datas, rfl, ho, hw⟩ := h.owned
  have hb2 := h.block
  obtain ⟨o', a1, a2, a3, a4, a5, a6⟩ := opened_reopens s root tabs datas ho (by omega) hr.full
  rw [hb2] at a1
  have hlen := length_rootData lang bs
  have hf := h.few
  obtain ⟨h1, h2⟩ := root_read v lang bs h.field (by omega) h.words []
  rw [List.append_nil] at h1 h2
  refine ⟨o', rootData lang bs, a1, ?_, ?_⟩
  · refine save_to_file_80 _ _ _ (by omega) a1 _ (by rw [a2, h.len]) ?_
    intro i hi
    rw [Nat.zero_add, h.bytes i hi, List.getElem?_eq_getElem hi]
  · unfold Db.tableBlocks
    rw [h1]
    simp only [Outcome.ok_bind]
    rw [if_neg (by omega), h2]

theorem deleteOpt_ok {e : Env} (hslack : 3 * 254 ≤ e.slack) {s : St} {sp : FreeSpec.State} {o : Option Obj} {ps : List Nat}
    (hr : Rep e s sp) (hp : Transfer.Part s sp o ps) (h2 : 2 ∉ ps) (hs : Short o) (k : Nat) (hb : Budget sp (ps.length + k)) :
    ∃ s' sp', deleteOpt e o s = .ok s' ∧ Rep e s' sp' ∧ sp.used.Perm (given o ps ++ sp'.used) ∧ sp'.total = sp.total ∧
      (∀ q ∈ sp'.used, s'.pages[q]? = s.pages[q]?) ∧ Budget sp' k := by
  cases o with
  | none => exact ⟨s, sp, rfl, hr, List.Perm.refl _, rfl, fun _ _ => rfl, budget_mono hb (by omega)⟩
  | some o =>
    obtain ⟨tabs, datas, rfl, ho, hw⟩ := hp
    have hb1 : o.block ≠ 1 := (used_facts hr (hw _ (by simp))).2.2.1
    have hb2 : o.block ≠ 2 := fun h => h2 (by rw [h]; simp)
    have hd := ho.nDatas
    have ht := ho.nTabs
    rcases Nat.eq_zero_or_pos o.len with h0 | hpos
    · have ht0 : tabs = [] := List.eq_nil_of_length_eq_zero (by omega)
      refine ⟨s, sp, ?_, hr, ?_, rfl, fun _ _ => rfl, budget_mono hb (by omega)⟩
      · show deleteObject id (setFree e) o s = _
        unfold deleteObject
        rw [if_neg (by omega), ho.numblocks, ht0]
        rfl
      · have : given (some o) (o.block :: (tabs ++ datas)) = [] := if_pos h0
        rw [this]
        exact List.Perm.refl _
    · have hl := hs o rfl
      obtain ⟨s', sp', a1, a2, a3, a4, a5, a6⟩ := delete_one_table_more e hslack s sp o tabs datas hr ho hw hb1 hb2 hpos hl k
        (budget_mono hb (by simp only [List.length_cons, List.length_append]; omega))
      refine ⟨s', sp', a1, a2, ?_, a4, a5, a6⟩
      have : given (some o) (o.block :: (tabs ++ datas)) = o.block :: (tabs ++ datas) := if_neg (by omega)
      rw [this]
      exact a3

theorem given_sub (o : Option Obj) (ps : List Nat) : ∀ q ∈ given o ps, q ∈ ps := by
  intro q hq
  unfold given at hq
  split at hq
  · cases hq
  · split at hq
    · cases hq
    · exact hq

/-- What is left of the other pages after one deletion. -/
theorem keep {s s' : St} {sp sp' : FreeSpec.State} {o : Option Obj} {ps : List Nat} (hp : sp.used.Perm (given o ps ++ sp'.used))
    (hf : ∀ q ∈ sp'.used, s'.pages[q]? = s.pages[q]?) : ∀ q ∈ sp.used, q ∉ ps → q ∈ sp'.used ∧ s'.pages[q]? = s.pages[q]? := by
  intro q hq hn
  have := hp.mem_iff.1 hq
  rw [List.mem_append] at this
  have h := this.resolve_left (fun h => hn (given_sub o ps q h))
  exact ⟨h, hf q h⟩

/-- **C88, the files of the table.** Deleting a table gives the pages of its description, data, blobs and index back, each exactly once;
every other page in use stays in use and unchanged. Missing: files longer than one allocation table covers (`delete_once_iff`), and format
8.3.8. -/
theorem delete_files_partial (e : Env) (hslack : 3 * 254 ≤ e.slack) (s : St) (sp : FreeSpec.State) (hr : Rep e s sp) (t : Transfer.Files)
    (d : Obj) (hd : t.descr = some d) (p0 p1 p2 p3 : List Nat) (h0 : Transfer.Part s sp t.descr p0) (h1 : Transfer.Part s sp t.data p1)
    (h2 : Transfer.Part s sp t.blob p2) (h3 : Transfer.Part s sp t.index p3) (hnd : (p0 ++ (p1 ++ (p2 ++ p3))).Nodup)
    (hroot : 2 ∉ p0 ++ (p1 ++ (p2 ++ p3))) (s0 : Short t.descr) (s1 : Short t.data) (s2 : Short t.blob) (s3 : Short t.index) (k : Nat)
    (hb : Budget sp ((p0 ++ (p1 ++ (p2 ++ p3))).length + k)) :
    ∃ s' sp', deleteFiles e t s = .ok (d.block, s') ∧ Rep e s' sp' ∧
      sp.used.Perm (given t.descr p0 ++ given t.data p1 ++ given t.blob p2 ++ given t.index p3 ++ sp'.used) ∧ sp'.total = sp.total ∧
      (∀ q ∈ sp'.used, s'.pages[q]? = s.pages[q]?) ∧ Budget sp' k := by
  simp only [List.mem_append, not_or] at hroot
  simp only [List.length_append] at hb
  obtain ⟨n0, n123, d0⟩ := List.nodup_append.1 hnd
  obtain ⟨n1, n23, d1⟩ := List.nodup_append.1 n123
  obtain ⟨n2, n3, d2⟩ := List.nodup_append.1 n23
  obtain ⟨sa, spa, a1, a2, a3, a4, a5, a6⟩ := deleteOpt_ok hslack hr h0 hroot.1 s0 (p1.length + (p2.length + (p3.length + k)))
    (budget_mono hb (by omega))
  have ka := keep a3 a5
  have fr : ∀ {o : Option Obj} {p q : List Nat}, Transfer.Part s sp o p → (∀ x ∈ q, ∀ y ∈ p, x ≠ y) → ∀ {s' : St} {sp' : FreeSpec.State},
      (∀ x ∈ sp.used, x ∉ q → x ∈ sp'.used ∧ s'.pages[x]? = s.pages[x]?) → Transfer.Part s' sp' o p := by
    intro o p q hp hd s' sp' hk
    exact Transfer.part_frame hp (fun x hx => hk x (Transfer.part_used hp x hx) (fun h => hd x h x hx rfl))
  have g1 : Transfer.Part sa spa t.data p1 := fr h1 (fun x hx y hy => d0 x hx y (by simp [hy])) ka
  obtain ⟨sb, spb, b1, b2, b3, b4, b5, b6⟩ := deleteOpt_ok hslack a2 g1 hroot.2.1 s1 (p2.length + (p3.length + k)) (budget_mono a6 (by omega))
  have kb : ∀ x ∈ sp.used, x ∉ p0 ++ p1 → x ∈ spb.used ∧ sb.pages[x]? = s.pages[x]? := by
    intro x hx hn
    simp only [List.mem_append, not_or] at hn
    obtain ⟨u1, u2⟩ := ka x hx hn.1
    obtain ⟨u3, u4⟩ := keep b3 b5 x u1 hn.2
    exact ⟨u3, u4.trans u2⟩
  have g2 : Transfer.Part sb spb t.blob p2 := fr h2 (fun x hx y hy => by
    rcases List.mem_append.1 hx with hx | hx
    · exact d0 x hx y (by simp [hy])
    · exact d1 x hx y (by simp [hy])) kb
  obtain ⟨sc, spc, c1, c2, c3, c4, c5, c6⟩ := deleteOpt_ok hslack b2 g2 hroot.2.2.1 s2 (p3.length + k) (budget_mono b6 (by omega))
  have kc : ∀ x ∈ sp.used, x ∉ (p0 ++ p1) ++ p2 → x ∈ spc.used ∧ sc.pages[x]? = s.pages[x]? := by
    intro x hx hn
    rw [List.mem_append, not_or] at hn
    obtain ⟨u1, u2⟩ := kb x hx hn.1
    obtain ⟨u3, u4⟩ := keep c3 c5 x u1 hn.2
    exact ⟨u3, u4.trans u2⟩
  have g3 : Transfer.Part sc spc t.index p3 := fr h3 (fun x hx y hy => by
    simp only [List.mem_append] at hx
    rcases hx with (hx | hx) | hx
    · exact d0 x hx y (by simp [hy])
    · exact d1 x hx y (by simp [hy])
    · exact d2 x hx y hy) kc
  obtain ⟨sd, spd, e1, e2, e3, e4, e5, e6⟩ := deleteOpt_ok hslack c2 g3 hroot.2.2.2 s3 k (budget_mono c6 (by omega))
  refine ⟨sd, spd, ?_, e2, ?_, ?_, ?_, e6⟩
  · unfold deleteFiles
    rw [hd] at a1 ⊢
    simp only
    have a1' : deleteObject id (setFree e) d s = .ok sa := a1
    rw [a1']
    simp only [Outcome.ok_bind]
    rw [b1]
    simp only [Outcome.ok_bind]
    rw [c1]
    simp only [Outcome.ok_bind]
    rw [e1]
    rfl
  · have := a3.trans (List.Perm.append_left _ (b3.trans (List.Perm.append_left _ (c3.trans (List.Perm.append_left _ e3)))))
    simpa [List.append_assoc] using this
  · rw [e4, c4, b4, a4]
  · intro q hq
    have q3 : q ∈ spc.used := e3.mem_iff.2 (by simp [hq])
    have q2 : q ∈ spb.used := c3.mem_iff.2 (by simp [q3])
    have q1 : q ∈ spa.used := b3.mem_iff.2 (by simp [q2])
    rw [e5 q hq, c5 q q3, b5 q q2, a5 q q1]

theorem holds_frame {v : Db.Ver} {s s' : St} {sp sp' : FreeSpec.State} {root : Obj} {ps : List Nat} {lang : Bytes} {bs : List Nat}
    (h : Spec.Holds v s sp root ps lang bs) (hs : ∀ q ∈ ps, q ∈ sp'.used ∧ s'.pages[q]? = s.pages[q]?) : Spec.Holds v s' sp' root ps lang bs := by
  have ho' := Transfer.owned_frame h.owned hs
  obtain ⟨tabs, datas, rfl, ho, hw⟩ := h.owned
  have hf' := Transfer.file80_frame ho.file (fun q hq => (hs q hq).2)
  refine ⟨ho', h.block, h.field, h.few, h.words, h.len, ?_, h.cached⟩
  have hb := h.bytes
  have h2 := h.block
  rw [← h2] at hb ⊢
  exact Transfer.begins_frame ho.file hf' (fun q hq => (hs q (by simp [hq])).2) (by rw [ho.nDatas, h.len]) hb

theorem writeVersion_data {e : Env} {s s' : St} {o o' : Obj} (h : writeVersion e s o = .ok (s', o')) : o'.data = o.data := by
  unfold writeVersion at h
  split at h
  · cases h; rfl
  · obtain ⟨a, _, h⟩ := bind_ok' h
    obtain ⟨b, _, h⟩ := bind_ok' h
    cases h
    rfl

theorem set_whole_data_none (e : Env) (fuel : Nat) (s : St) (o : Obj) (buf : Bytes) (s' : St) (o' : Obj) (hk : o.kind = .data80)
    (h : setWhole e false fuel s o buf = .ok (some (s', o'))) : o'.data = none := by
  unfold setWhole at h
  rw [if_neg (by decide), hk] at h
  simp only at h
  obtain ⟨r, hr, h⟩ := bind_ok' h
  cases r with
  | none => cases h
  | some r =>
    obtain ⟨s1, o1⟩ := r
    obtain ⟨x, hx, h⟩ := bind_ok' h
    cases h
    have h1 : o1.data = none := by
      unfold setLen80 at hr
      split at hr
      · cases hr; rfl
      · obtain ⟨a, _, hr⟩ := bind_ok' hr
        obtain ⟨b, _, hr⟩ := bind_ok' hr
        obtain ⟨c, _, hr⟩ := bind_ok' hr
        cases c with
        | none => cases hr
        | some c =>
          obtain ⟨s2, nb⟩ := c
          obtain ⟨bl, _, hr⟩ := bind_ok' hr
          obtain ⟨y, hy, hr⟩ := bind_ok' hr
          cases hr
          exact writeVersion_data hy
    have key : ∀ {s3 : St}, writeVersion e s3 o1 = .ok (s', o') → o'.data = none := fun hw => (writeVersion_data hw).trans h1
    unfold putWhole at hx
    split at hx
    · obtain ⟨a, _, hx⟩ := bind_ok' hx
      exact key hx
    · split at hx
      · obtain ⟨a, _, hx⟩ := bind_ok' hx
        obtain ⟨b, _, hx⟩ := bind_ok' hx
        obtain ⟨c, _, hx⟩ := bind_ok' hx
        exact key hx
      · obtain ⟨a, _, hx⟩ := bind_ok' hx
        exact key hx
    · cases hx

/-- Storing another list in the root object. -/
theorem store_list {e : Env} (hslack : 3 * 254 ≤ e.slack) {fuel : Nat} {v : Db.Ver} {s : St} {sp : FreeSpec.State} {root : Obj}
    {tabs datas : List Nat} {lang : Bytes} {bs : List Nat} (hr : Rep e s sp) (h : Spec.Holds v s sp root (2 :: (tabs ++ datas)) lang bs)
    (ho : Opened80 s root tabs datas) (hw : Within sp root.block tabs datas) (bs' : List Nat)
    (hlen : (rootData lang bs').length ≤ 1023 * 4096) (hwd : ∀ b ∈ bs', b < 2 ^ 32)
    (hsm : sp.total + 2 * (((rootData lang bs').length + 4095) / 4096) ≤ 2 ^ 32) (hbu : Budget sp (2 * datas.length))
    (hfuel : datas.length < fuel) :
    ∃ s' root' sp' ps', setWhole e false fuel s root (rootData lang bs') = .ok (some (s', root')) ∧ Rep e s' sp' ∧
      Spec.Holds v s' sp' root' ps' lang bs' ∧
      (∀ q ∈ sp.used, q ∉ 2 :: (tabs ++ datas) → q ∈ sp'.used ∧ q ∉ ps' ∧ s'.pages[q]? = s.pages[q]?) := by
  have hl := length_rootData lang bs'
  have hne : rootData lang bs' ≠ [] := by
    intro h0
    rw [h0] at hl
    simp at hl
    omega
  have hfew := h.few
  have hrl := h.len
  obtain ⟨s', o', sp', tabs', datas', a1, a2, a3, a4, a5, a6, a7, a8⟩ := set_whole_80_partial e hslack fuel s sp root tabs datas
    (rootData lang bs') hr ho hw hne (by unfold Object.Spec.Good80; omega) (by omega) (by omega) hsm hbu hfuel
  have hb2 := h.block
  rw [hb2] at a4 a6 a7 a8
  refine ⟨s', o', sp', 2 :: (tabs' ++ datas'), a1, a2, ?_, a8⟩
  refine ⟨⟨tabs', datas', by rw [a6], a3, by rw [a6]; exact a4⟩, a6, h.field, hlen, hwd, a5, a7, ?_⟩
  left
  exact set_whole_data_none e fuel s root _ s' o' ho.kind a1

/-- **C88, the list.** Taking the header page `bl` off the list leaves the other tables on it, in their order; no other object changes. -/
theorem drop_from_list_partial (e : Env) (hslack : 3 * 254 ≤ e.slack) (fuel : Nat) (v : Db.Ver) (s : St) (sp : FreeSpec.State) (root : Obj)
    (ps : List Nat) (lang : Bytes) (bs : List Nat) (hr : Rep e s sp) (h : Spec.Holds v s sp root ps lang bs) (bl : Nat) (hbl : bl ∈ bs)
    (hsm : sp.total + 2 * 1023 ≤ 2 ^ 32) (hbu : Budget sp (2 * ps.length)) (hfuel : ps.length ≤ fuel) :
    ∃ s' root' sp' ps', dropFromList e v false fuel s root bl = .ok (some (s', root')) ∧ Rep e s' sp' ∧
      Spec.Holds v s' sp' root' ps' lang (bs.erase bl) ∧ Names v s'.pages (bs.erase bl) ∧
      (∀ q ∈ sp.used, q ∉ ps → q ∈ sp'.used ∧ q ∉ ps' ∧ s'.pages[q]? = s.pages[q]?) := by
  have h' := h
  obtain ⟨tabs, datas, rfl, ho, hw⟩ := h.owned
  have hb2 := h.block
  have hl := length_rootData lang bs
  have hl' := length_rootData lang (bs.erase bl)
  have hfew := h.few
  have hpos := List.length_pos_of_mem hbl
  have hel := List.length_erase_of_mem hbl
  obtain ⟨d, d1, d2⟩ := removeBlock_ok v lang bs h.field (by omega) h.words (List.ne_nil_of_mem hbl) bl
  rw [shiftOut_mem bl bs hbl] at d2
  have hg := getPart_owned hr h.owned h.len (by rw [hb2]; exact h.bytes) h.cached root.len (by rw [h.len]; omega) (by rw [h.len]; omega)
  rw [List.take_of_length_le (by rw [h.len]; omega)] at hg
  rw [hb2] at h'
  simp only [List.length_cons, List.length_append] at hbu hfuel
  obtain ⟨s', root', sp', ps', a1, a2, a3, a4⟩ := store_list hslack (fuel := fuel) hr h' ho hw (bs.erase bl) (by omega)
    (fun b hb => h.words b (List.mem_of_mem_erase hb)) (by omega) (budget_mono hbu (by omega)) (by omega)
  refine ⟨s', root', sp', ps', ?_, a2, a3, holds_names a2 a3, by rw [hb2]; exact a4⟩
  unfold dropFromList
  rw [hg]
  simp only [Outcome.ok_bind]
  rw [d1]
  simp only [Outcome.ok_bind]
  rw [h.len, d2, a1]

/-- **C88, deleting a table.** The call reports success; the table is off the list in memory and off the list in the file, where the other
tables stay in their order; the pages of its files are given back (`s1` is the moment after that); no page of any other object changes or is
given back. Missing: as in `delete_files_partial`. -/
theorem delete_table_partial (e : Env) (hslack : 3 * 254 ≤ e.slack) (fuel : Nat) (v : Db.Ver) (b : Base) (sp : FreeSpec.State) (rp : List Nat)
    (lang : Bytes) (bs : List Nat) (hr : Rep e b.st sp) (h : Spec.Holds v b.st sp b.root rp lang bs) (t : Transfer.Files) (ht : t ∈ b.tables)
    (d : Obj) (hd : t.descr = some d) (hbl : d.block ∈ bs) (p0 p1 p2 p3 : List Nat) (h0 : Transfer.Part b.st sp t.descr p0)
    (h1 : Transfer.Part b.st sp t.data p1) (h2 : Transfer.Part b.st sp t.blob p2) (h3 : Transfer.Part b.st sp t.index p3)
    (hnd : (rp ++ (p0 ++ (p1 ++ (p2 ++ p3)))).Nodup) (s0 : Short t.descr) (s1 : Short t.data) (s2 : Short t.blob) (s3 : Short t.index)
    (hsm : sp.total + 2 * 1023 ≤ 2 ^ 32) (hbu : Budget sp ((p0 ++ (p1 ++ (p2 ++ p3))).length + 2 * rp.length)) (hfuel : rp.length ≤ fuel) :
    ∃ b' sp' rp' s1 sp1, deleteTable e v false fuel b t = .ok (some (b', true)) ∧ Rep e b'.st sp' ∧
      b'.tables = b.tables.erase t ∧ Spec.Holds v b'.st sp' b'.root rp' lang (bs.erase d.block) ∧ Names v b'.st.pages (bs.erase d.block) ∧
      (∀ q ∈ sp.used, q ∉ rp ++ (p0 ++ (p1 ++ (p2 ++ p3))) → q ∈ sp'.used ∧ q ∉ rp' ∧ b'.st.pages[q]? = b.st.pages[q]?) ∧
      deleteFiles e t b.st = .ok (d.block, s1) ∧ Rep e s1 sp1 ∧
      sp.used.Perm (given t.descr p0 ++ given t.data p1 ++ given t.blob p2 ++ given t.index p3 ++ sp1.used) := by
  obtain ⟨nr, nf, dj⟩ := List.nodup_append.1 hnd
  have h2rp : 2 ∈ rp := by
    obtain ⟨tabs, datas, rfl, _, _⟩ := h.owned
    rw [h.block]
    simp
  obtain ⟨sa, spa, a1, a2, a3, a4, a5, a6⟩ := delete_files_partial e hslack b.st sp hr t d hd p0 p1 p2 p3 h0 h1 h2 h3 nf
    (fun hh => dj 2 h2rp 2 hh rfl) s0 s1 s2 s3 (2 * rp.length) hbu
  have hk : ∀ q ∈ sp.used, q ∉ p0 ++ (p1 ++ (p2 ++ p3)) → q ∈ spa.used ∧ sa.pages[q]? = b.st.pages[q]? := by
    intro q hq hn
    have hm := a3.mem_iff.1 hq
    simp only [List.mem_append, not_or] at hm hn
    have : q ∈ spa.used := by
      rcases hm with (((hm | hm) | hm) | hm) | hm
      · exact absurd (given_sub _ _ q hm) hn.1
      · exact absurd (given_sub _ _ q hm) hn.2.1
      · exact absurd (given_sub _ _ q hm) hn.2.2.1
      · exact absurd (given_sub _ _ q hm) hn.2.2.2
      · exact hm
    exact ⟨this, a5 q this⟩
  have hrp : ∀ q ∈ rp, q ∈ sp.used := by
    obtain ⟨tabs, datas, rfl, _, hw⟩ := h.owned
    exact hw
  have ha := holds_frame h (s' := sa) (sp' := spa) (fun q hq => hk q (hrp q hq) (fun hh => dj q hq q hh rfl))
  obtain ⟨s', root', sp', rp', c1, c2, c3, c4, c5⟩ := drop_from_list_partial e hslack fuel v sa spa b.root rp lang bs a2 ha d.block hbl
    (by omega) a6 hfuel
  refine ⟨⟨s', root', removeTable t b.tables⟩, sp', rp', sa, spa, ?_, c2, shiftOut_mem t _ ht, c3, c4, ?_, a1, a2, a3⟩
  · unfold deleteTable
    rw [if_neg (by rw [hd]; simp), if_neg (List.ne_nil_of_mem ht), a1]
    simp only [Outcome.ok_bind]
    rw [c1]
    rfl
  · intro q hq hn
    rw [List.mem_append, not_or] at hn
    obtain ⟨u1, u2⟩ := hk q hq hn.2
    obtain ⟨w1, w2, w3⟩ := c5 q u1 hn.1
    exact ⟨w1, w2, w3.trans u2⟩

/-- **Finding (C88).** In a database opened for reading only the list cannot be stored, and the call fails; but by then the pages of the
table have been given back: the table that is still on the list is made of free pages. -/
theorem delete_readonly (e : Env) (hslack : 3 * 254 ≤ e.slack) (fuel : Nat) (v : Db.Ver) (b : Base) (sp : FreeSpec.State) (rp : List Nat)
    (lang : Bytes) (bs : List Nat) (hr : Rep e b.st sp) (h : Spec.Holds v b.st sp b.root rp lang bs) (t : Transfer.Files) (ht : t ∈ b.tables)
    (d : Obj) (hd : t.descr = some d) (hbl : d.block ∈ bs) (hne : 0 < d.len) (p0 p1 p2 p3 : List Nat) (h0 : Transfer.Part b.st sp t.descr p0)
    (h1 : Transfer.Part b.st sp t.data p1) (h2 : Transfer.Part b.st sp t.blob p2) (h3 : Transfer.Part b.st sp t.index p3)
    (hnd : (rp ++ (p0 ++ (p1 ++ (p2 ++ p3)))).Nodup) (s0 : Short t.descr) (s1 : Short t.data) (s2 : Short t.blob) (s3 : Short t.index)
    (hbu : Budget sp (p0 ++ (p1 ++ (p2 ++ p3))).length) :
    deleteTable e v true fuel b t = .throw ∧
      ∃ s' sp', deleteFiles e t b.st = .ok (d.block, s') ∧ Rep e s' sp' ∧ (∀ q ∈ p0, q ∉ sp'.used) ∧ Names v s'.pages bs := by
  obtain ⟨nr, nf, dj⟩ := List.nodup_append.1 hnd
  have h2rp : 2 ∈ rp := by
    obtain ⟨tabs, datas, rfl, _, _⟩ := h.owned
    rw [h.block]
    simp
  obtain ⟨sa, spa, a1, a2, a3, a4, a5, a6⟩ := delete_files_partial e hslack b.st sp hr t d hd p0 p1 p2 p3 h0 h1 h2 h3 nf
    (fun hh => dj 2 h2rp 2 hh rfl) s0 s1 s2 s3 0 hbu
  have hrp : ∀ q ∈ rp, q ∈ sp.used := by
    obtain ⟨tabs, datas, rfl, _, hw⟩ := h.owned
    exact hw
  have ha : Spec.Holds v sa spa b.root rp lang bs := by
    refine holds_frame h (fun q hq => ?_)
    have hm := a3.mem_iff.1 (hrp q hq)
    have hn : q ∉ p0 ++ (p1 ++ (p2 ++ p3)) := fun hh => dj q hq q hh rfl
    simp only [List.mem_append, not_or] at hm hn
    have : q ∈ spa.used := by
      rcases hm with (((hm | hm) | hm) | hm) | hm
      · exact absurd (given_sub _ _ q hm) hn.1
      · exact absurd (given_sub _ _ q hm) hn.2.1
      · exact absurd (given_sub _ _ q hm) hn.2.2.1
      · exact absurd (given_sub _ _ q hm) hn.2.2.2
      · exact hm
    exact ⟨this, a5 q this⟩
  refine ⟨?_, sa, spa, a1, a2, ?_, holds_names a2 ha⟩
  · have hl := length_rootData lang bs
    have hfew := h.few
    have hg := getPart_owned a2 ha.owned h.len (by rw [h.block]; exact ha.bytes) h.cached b.root.len (by rw [h.len]; omega) (by rw [h.len]; omega)
    obtain ⟨x, x1, _⟩ := removeBlock_ok v lang bs h.field (by omega) h.words (List.ne_nil_of_mem hbl) d.block
    rw [List.take_of_length_le (by rw [h.len]; omega)] at hg
    unfold deleteTable
    rw [if_neg (by rw [hd]; simp), if_neg (List.ne_nil_of_mem ht), a1]
    simp only [Outcome.ok_bind]
    have : dropFromList e v true fuel sa b.root d.block = .throw := by
      unfold dropFromList
      rw [hg]
      simp only [Outcome.ok_bind]
      rw [x1]
      rfl
    rw [this]
    rfl
  · intro q hq hu
    have hn := a3.nodup_iff.1 (rep_used_nodup hr)
    have hg0 : given t.descr p0 = p0 := by rw [hd]; exact if_neg (by omega)
    rw [hg0] at hn
    exact (List.nodup_append.1 hn).2.2 q (by simp [hq]) q hu rfl

/-- **Finding (C88).** A table whose description is not on the list costs another one its place: the last table on the list is dropped
from it. -/
theorem absent_drops_last (v : Db.Ver) (lang : Bytes) (bs : List Nat) (hl : lang.length = Db.langSize v) (hn : bs.length < 2 ^ 31)
    (hb : ∀ b ∈ bs, b < 2 ^ 32) (hne : bs ≠ []) (bl : Nat) (habs : bl ∉ bs) :
    ∃ d, removeBlock v (rootData lang bs) bl = .ok d ∧ d.take ((rootData lang bs).length - 4) = rootData lang bs.dropLast := by
  obtain ⟨d, h1, h2⟩ := removeBlock_ok v lang bs hl hn hb hne bl
  rw [shiftOut_not_mem bl bs habs] at h2
  exact ⟨d, h1, h2⟩

example : removeBlock .v8_2_14 (rootData (List.replicate 32 0) [5, 9, 12]) 7 =
    .ok (List.replicate 32 0 ++ [2, 0, 0, 0, 5, 0, 0, 0, 9, 0, 0, 0, 12, 0, 0, 0]) := by decide

/-! ## Lost tables -/

theorem isDescr_80 {pages : List Bytes} {i : Nat} {o : Obj} {c : Bytes} (hi : i ≠ 1) (ho : init pages 4096 false i = .ok o)
    (hl : o.len = c.length) (hk : o.kind = .data80) (hc : Lost.Spec.Contents80 pages i c) :
    ∃ b, isDescr pages 4096 o = .ok b ∧ (b = true ↔ ∃ rest, c = [0x7b, 0, 0x22, 0] ++ rest) := by
  have hg : getLen o = c.length := by
    unfold getLen
    rw [if_neg (by rw [hk]; decide), hl]
  unfold isDescr
  rw [hg]
  split
  · rename_i hlen
    have h4 : (c.take 4).length = 4 := by rw [List.length_take]; omega
    have := read_range_80 pages 4096 i o hi ho 0 (c.take 4) (by intro h0; rw [h0] at h4; cases h4) (by omega) (by
      intro j hj
      rw [h4] at hj
      rw [hc.2.2 j (by omega), List.getElem_take])
    rw [h4] at this
    rw [this]
    refine ⟨_, rfl, ?_⟩
    rw [decide_eq_true_iff]
    constructor
    · intro h
      refine ⟨c.drop 4, ?_⟩
      have h' : [0x7b, 0, 0x22, 0] = c.take 4 := h.symm
      rw [h', List.take_append_drop]
    · rintro ⟨rest, rfl⟩
      rfl
  · rename_i hlen
    refine ⟨false, rfl, by simp, ?_⟩
    rintro ⟨rest, rfl⟩
    simp at hlen

/-- The contents of an object are determined by the pages. -/
theorem contents_unique {pages : List Bytes} {i : Nat} {a b : Bytes} (ha : Lost.Spec.Contents80 pages i a)
    (hb : Lost.Spec.Contents80 pages i b) : a = b := by
  obtain ⟨⟨p, p1, _, p2⟩, _, ha⟩ := ha
  obtain ⟨⟨q, q1, _, q2⟩, _, hb⟩ := hb
  rw [p1] at q1
  cases q1
  rw [p2] at q2
  have hl : a.length = b.length := Option.some.inj q2
  refine List.ext_getElem hl (fun j h1 h2 => ?_)
  have := ha j h1
  rw [hb j h2] at this
  exact (Option.some.inj this).symm

theorem lostTables_80 (pages : List Bytes) (live : List Lost.Live)
    (hall : ∀ i, Lost.Spec.Marked pages i → (∀ o ∈ live, o.block ≠ i) → i ≠ 1 ∧ ∃ c, Lost.Spec.Contents80 pages i c) :
    ∀ is : List Nat, (∀ i ∈ is, 0 < i ∧ i < pages.length) →
      ∃ ls, lostTables pages 4096 false (some live) is = .ok ls ∧ ls.Sublist is ∧ ∀ i ∈ is, (i ∈ ls ↔ LostTable pages live i)
  | [], _ => ⟨[], rfl, List.Sublist.refl _, by simp⟩
  | i :: is, hlt => by
    obtain ⟨ls, h1, h2, h3⟩ := lostTables_80 pages live hall is (fun j hj => hlt j (List.mem_cons_of_mem _ hj))
    obtain ⟨b, hb, hbi⟩ := Lost.isLost_iff (live := live) (hlt i (List.mem_cons_self ..)).2
    rw [lostTables, hb]
    simp only [Outcome.ok_bind]
    have hsub : ∀ j ∈ ls, j ∈ is := fun j hj => h2.subset hj
    cases b with
    | false =>
      rw [if_neg (by decide), h1]
      refine ⟨ls, rfl, h2.cons _, ?_⟩
      intro j hj
      rcases List.mem_cons.1 hj with rfl | hj
      · have hno : ¬ LostTable pages live j := by
          rintro ⟨_, m, l, _⟩
          exact absurd (hbi.2 ⟨m, l⟩) (by decide)
        exact ⟨fun h => absurd ((h3 j (hsub j h)).1 h) hno, fun h => absurd h hno⟩
      · exact h3 j hj
    | true =>
      obtain ⟨hm, hl⟩ := hbi.1 rfl
      obtain ⟨hi1, c, hc⟩ := hall i hm hl
      obtain ⟨o, ho, hol, hok⟩ := Lost.init_contents hi1 hm hc
      obtain ⟨d, hd, hdi⟩ := isDescr_80 hi1 ho hol hok hc
      have hLT : LostTable pages live i ↔ d = true := by
        rw [hdi]
        constructor
        · rintro ⟨_, _, _, rest, hr⟩
          exact ⟨rest, contents_unique hc hr⟩
        · rintro ⟨rest, rfl⟩
          exact ⟨(hlt i (List.mem_cons_self ..)).1, hm, hl, rest, hc⟩
      rw [if_pos rfl, ho]
      simp only [Outcome.ok_bind]
      rw [hd]
      simp only [Outcome.ok_bind]
      rw [h1]
      refine ⟨_, rfl, ?_, ?_⟩
      · cases d
        · exact h2.cons _
        · exact h2.cons_cons _
      · intro j hj
        cases d with
        | true =>
          rw [if_pos rfl]
          rcases List.mem_cons.1 hj with rfl | hj
          · exact ⟨fun _ => hLT.2 rfl, fun _ => List.mem_cons_self ..⟩
          · rw [List.mem_cons]
            constructor
            · rintro (rfl | h)
              · exact hLT.2 rfl
              · exact (h3 j hj).1 h
            · exact fun h => .inr ((h3 j hj).2 h)
        | false =>
          rw [if_neg (by decide)]
          rcases List.mem_cons.1 hj with rfl | hj
          · have hno : ¬ LostTable pages live j := fun h => absurd (hLT.1 h) (by decide)
            exact ⟨fun h => absurd ((h3 j (hsub j h)).1 h) hno, fun h => absurd h hno⟩
          · exact h3 j hj

/-- **C88, lost tables.** The search puts exactly the lost tables — objects that no open object covers and whose contents begin like the
description of a table — onto the list, after the tables that are there and in the order of their pages, and reports their number; no page of
any other object changes. Missing: databases in which a lost object cannot be read, format 8.3.8. -/
theorem restore_partial (e : Env) (hslack : 3 * 254 ≤ e.slack) (fuel : Nat) (v : Db.Ver) (hv : v ≠ .v8_3_8) (junk : Nat → UInt8) (s : St)
    (sp : FreeSpec.State) (root : Obj) (ps : List Nat) (lang : Bytes) (bs : List Nat) (hr : Rep e s sp)
    (h : Spec.Holds v s sp root ps lang bs) (live : List Lost.Live)
    (hall : ∀ i, Lost.Spec.Marked s.pages i → (∀ o ∈ live, o.block ≠ i) → i ≠ 1 ∧ ∃ c, Lost.Spec.Contents80 s.pages i c)
    (hsm : Db.langSize v + 4 + 4 * (bs.length + s.pages.length) ≤ 1023 * 4096) (hbu : Budget sp (2 * ps.length)) (hfuel : ps.length ≤ fuel) :
    ∃ ls s' root' sp' ps', restore e v false fuel junk (some live) s root = .ok (some (s', root', ls.length)) ∧
      ls.Pairwise (· < ·) ∧ (∀ i, i ∈ ls ↔ LostTable s.pages live i) ∧ Rep e s' sp' ∧ Spec.Holds v s' sp' root' ps' lang (bs ++ ls) ∧
      Names v s'.pages (bs ++ ls) ∧ (∀ q ∈ sp.used, q ∉ ps → q ∈ sp'.used ∧ s'.pages[q]? = s.pages[q]?) := by
  obtain ⟨ls, h1, h2, h3⟩ := lostTables_80 s.pages live hall (Lost.candidates s.pages) (fun i hi => Lost.mem_candidates.1 hi)
  have hpw : ls.Pairwise (· < ·) := by
    refine List.Pairwise.sublist h2 ?_
    unfold Lost.candidates
    exact List.pairwise_lt_range'
  have hiff : ∀ i, i ∈ ls ↔ LostTable s.pages live i := by
    intro i
    constructor
    · exact fun hi => (h3 i (h2.subset hi)).1 hi
    · intro hi
      have hlt : i < s.pages.length := by
        obtain ⟨_, ⟨rest, hm⟩, _⟩ := hi
        rcases Nat.lt_or_ge i s.pages.length with h' | h'
        · exact h'
        · rw [List.getElem?_eq_none h'] at hm
          cases hm
      exact (h3 i (Lost.mem_candidates.2 ⟨hi.1, hlt⟩)).2 hi
  have hlsl : ls.length ≤ s.pages.length := by
    have := h2.length_le
    unfold Lost.candidates at this
    rw [List.length_range'] at this
    omega
  have hlt : ∀ i ∈ ls, i < 2 ^ 32 := by
    intro i hi
    have := (Lost.mem_candidates.1 (h2.subset hi)).2
    omega
  unfold restore
  rw [show decide (v = .v8_3_8) = false by simpa using hv, hr.P, h1]
  simp only [Outcome.ok_bind]
  by_cases hnil : ls = []
  · rw [if_pos hnil]
    subst hnil
    refine ⟨[], s, root, sp, ps, rfl, hpw, hiff, hr, by rw [List.append_nil]; exact h, by rw [List.append_nil]; exact holds_names hr h,
      fun q hq _ => ⟨hq, rfl⟩⟩
  · rw [if_neg hnil]
    have h' := h
    obtain ⟨tabs, datas, rfl, ho, hw⟩ := h.owned
    have hb2 := h.block
    have hl := length_rootData lang bs
    have hl' := length_rootData lang (bs ++ ls)
    have hf := h.field
    rw [List.length_append] at hl'
    have hg := getPart_owned hr h.owned h.len (by rw [hb2]; exact h.bytes) h.cached root.len (by rw [h.len]; omega) (by rw [h.len]; omega)
    rw [List.take_of_length_le (by rw [h.len]; omega), hr.P] at hg
    rw [hg]
    simp only [Outcome.ok_bind]
    rw [addBlocks_ok v junk lang bs ls h.field (by rw [List.length_append]; omega) h.words]
    simp only [Outcome.ok_bind]
    rw [hb2] at h'
    simp only [List.length_cons, List.length_append] at hbu hfuel
    have htot := hr.total
    obtain ⟨s', root', sp', ps', a1, a2, a3, a4⟩ := store_list hslack (fuel := fuel) hr h' ho hw (bs ++ ls) (by omega)
      (fun b hb => (List.mem_append.1 hb).elim (h.words b) (hlt b)) (by omega) (budget_mono hbu (by omega)) (by omega)
    rw [a1]
    refine ⟨ls, s', root', sp', ps', rfl, hpw, hiff, a2, a3, holds_names a2 a3, ?_⟩
    intro q hq hn
    rw [hb2] at hn
    exact ⟨(a4 q hq hn).1, (a4 q hq hn).2.2⟩

end Verif.Tables
