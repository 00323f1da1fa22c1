import Verif.Index.TreeBranch

/-! # Lemmas: leaves in the file -/

namespace Verif.Index
open Verif Blob

theorem setHdr_relinked {p l : Bytes} {fl a b : Nat} (hp : 12 ≤ p.length) (hl : l.length = 8) :
    ∃ a' b', Spec.relinked (setHdr p fl a b) l = setHdr p fl a' b' := by
  refine ⟨ofLe (l.take 4), ofLe (l.drop 4), ?_⟩
  have e1 : le 4 (ofLe (l.take 4)) = l.take 4 := by
    have := le_ofLe (l.take 4)
    rwa [List.length_take, Nat.min_eq_left (by omega)] at this
  have e2 : le 4 (ofLe (l.drop 4)) = l.drop 4 := by
    have := le_ofLe (l.drop 4)
    rwa [List.length_drop, show l.length - 4 = 4 by omega] at this
  unfold Spec.relinked
  rw [setHdr_drop hp]
  unfold setHdr
  rw [e1, e2]
  have : List.take 4 (le 2 fl ++ List.take 2 (List.drop 2 p) ++ le 4 a ++ le 4 b ++ List.drop 12 p) = le 2 fl ++ List.take 2 (List.drop 2 p) := by
    rw [List.append_assoc, List.append_assoc]
    exact List.take_left' (by rw [List.length_append, le_length, List.length_take, List.length_drop]; omega)
  rw [this]
  congr 1
  rw [List.append_assoc (le 2 fl ++ List.take 2 (List.drop 2 p)), List.take_append_drop]

theorem at_drop {p q : Bytes} {d off k n : Nat} (h : Spec.At p off k n) (hd : q.drop d = p.drop d) (hl : q.length = p.length) (ho : d ≤ off) (hp : d ≤ p.length) :
    Spec.At q off k n := by
  obtain ⟨pre, post, h1, h2, h3⟩ := h
  refine ⟨q.take d ++ pre.drop d, post, ?_, ?_, h3⟩
  · have : p.drop d = pre.drop d ++ (le k n ++ post) := by rw [h1, List.drop_append_of_le_length (by omega)]
    rw [List.append_assoc, ← this, ← hd, List.take_append_drop]
  · rw [List.length_append, List.length_take, List.length_drop]; omega

theorem isLeaf_setHdr {p : Bytes} {nums : List Nat} {nx fl a b : Nat} (h : Spec.IsLeaf p nums nx) (hp : 12 ≤ p.length) (hfl : fl.testBit 1 = true)
    (hb : b < 2 ^ 32) : Spec.IsLeaf (setHdr p fl a b) nums b := by
  obtain ⟨_, ⟨hc, hc'⟩, _, ⟨m, w, hm, hw, hw', hr⟩⟩ := h
  have hd := setHdr_drop (fl := fl) (prev := a) (next := b) hp
  have hl := setHdr_length (fl := fl) (prev := a) (next := b) hp
  refine ⟨⟨fl % 256, ⟨[], UInt8.ofNat (fl / 256) :: ((p.drop 2).take 2 ++ le 4 a ++ le 4 b ++ p.drop 12), ?_, rfl, Nat.mod_lt _ (by decide)⟩, ?_⟩,
    ⟨⟨le 2 fl, le 4 a ++ le 4 b ++ p.drop 12, ?_, le_length _ _, hc.choose_spec.choose_spec.2.2⟩, hc'⟩,
    ⟨le 2 fl ++ (p.drop 2).take 2 ++ le 4 a, p.drop 12, ?_, ?_, hb⟩,
    ⟨m, w, at_drop hm hd hl (by omega) hp, at_drop hw hd hl (by omega) hp, hw', ?_⟩⟩
  · unfold setHdr
    simp only [le, List.cons_append, List.nil_append]
    congr 1
    rw [UInt8.ofNat_mod_size]
  · rw [show (256 : Nat) = 2 ^ 8 from rfl, Nat.testBit_mod_two_pow, hfl]; rfl
  · unfold setHdr
    have : (p.drop 2).take 2 = le 2 nums.length := by
      obtain ⟨pre, post, g1, g2, _⟩ := hc
      rw [g1, List.drop_left' g2, List.take_left' (le_length _ _)]
    rw [this]
    simp only [List.append_assoc]
  · unfold setHdr
    simp only [List.append_assoc]
  · simp only [List.length_append, le_length, List.length_take, List.length_drop]; omega
  · intro i x hx
    obtain ⟨r, g1, g2⟩ := hr i x hx
    exact ⟨r, at_drop g1 hd hl (by omega) hp, g2⟩

/-- A freshly packed page holds its entries, whatever its links are. -/
theorem packed_holds {c : Conf} (hs : Spec.Sizes c) (rest : Bytes) (es : List Entry) (page p : Bytes) (fl a b : Nat) (hes : Spec.Entries c.P.len es) (hne : es ≠ [])
    (hpl : page.length = c.P.pagesize) (hr : Spec.Room c es) (h : pack c.P.primary c.P.len c.P.pagesize rest es page = .ok (some p)) (hfl : fl < 65536)
    (hfl2 : ¬ (fl &&& 2 = 0)) (hb : b < 2 ^ 32) :
    Spec.LeafHolds c (setHdr p fl a b) es ∧ (setHdr p fl a b).length = c.P.pagesize := by
  have hps := hs.page
  obtain ⟨w, hw⟩ := isWidth_exists c.P.len hs.key.2 es hes
  obtain ⟨r1, r2⟩ := hr.2 w hw
  have hl := (pack_keeps_links _ _ _ _ _ _ _ (by omega) hpl h).1
  refine ⟨⟨?_, ?_⟩, by rw [setHdr_length (by omega), hl]⟩
  · intro l h8
    obtain ⟨a', b', e⟩ := setHdr_relinked (p := p) (fl := fl) (a := a) (b := b) (by omega) h8
    rw [e]
    exact (unpack_setHdr _ _ _ _ es page p fl a' b' hs.key.1 hs.key.2 hes hne (by omega) hps.2 hpl w hw h hfl hfl2).2 r2
  · have hat : ∃ next, Spec.At page 8 4 next := by
      refine ⟨ofLe ((page.drop 8).take 4), page.take 8, page.drop 12, ?_, by rw [List.length_take]; omega, ?_⟩
      · have e4 : ((page.drop 8).take 4).length = 4 := by rw [List.length_take, List.length_drop]; omega
        have := le_ofLe ((page.drop 8).take 4)
        rw [e4] at this
        rw [this]
        have e12 : page.drop 12 = (page.drop 8).drop 4 := by rw [List.drop_drop]
        rw [e12, List.take_append_drop, List.take_append_drop]
      · have e4 : ((page.drop 8).take 4).length = 4 := by rw [List.length_take, List.length_drop]; omega
        have := ofLe_lt ((page.drop 8).take 4)
        rwa [e4] at this
    obtain ⟨next, hnext⟩ := hat
    have hrd : es.length * w + 34 ≤ c.P.pagesize + w := by unfold Spec.Readable at r2; omega
    have := packed_isLeaf c.P.primary c.P.len c.P.pagesize rest es page p next hs.key.1 hs.key.2 hes hr.1 (by omega) hps.2 hpl hnext w hw hrd h
    exact ⟨b, isLeaf_setHdr this (by omega) ((flag_bit fl).mp hfl2) hb⟩

theorem holds_unpack {c : Conf} {page : Bytes} {es : List Entry} (h : Spec.LeafHolds c page es) (hp : 12 ≤ page.length) : unpack c.P.len page = .ok es := by
  have := h.unpacks ((page.drop 4).take 8) (by rw [List.length_take, List.length_drop]; omega)
  rwa [relinked_self] at this

theorem holds_flag {c : Conf} {page : Bytes} {es : List Entry} (h : Spec.LeafHolds c page es) :
    ∃ fl, rd page 0 1 = .ok fl ∧ fl &&& 2 ≠ 0 := by
  obtain ⟨next, hn⟩ := h.lists
  obtain ⟨fl, h1, h2⟩ := hn.flag
  exact ⟨fl, rd_at h1, (flag_bit fl).mpr h2⟩

theorem setHdr_at {p : Bytes} {fl a b : Nat} (hp : 4 ≤ p.length) (ha : a < 2 ^ 32) (hb : b < 2 ^ 32) :
    Spec.At (setHdr p fl a b) 4 4 a ∧ Spec.At (setHdr p fl a b) 8 4 b := by
  refine ⟨⟨le 2 fl ++ (p.drop 2).take 2, le 4 b ++ p.drop 12, ?_, ?_, ha⟩, ⟨le 2 fl ++ (p.drop 2).take 2 ++ le 4 a, p.drop 12, ?_, ?_, hb⟩⟩
  · unfold setHdr; simp only [List.append_assoc]
  · simp only [List.length_append, le_length, List.length_take, List.length_drop]; omega
  · unfold setHdr; simp only [List.append_assoc]
  · simp only [List.length_append, le_length, List.length_take, List.length_drop]; omega

/-- What `leafDelete` does to a leaf. -/
theorem leafDelete_cases {c : Conf} (hs : Spec.Sizes c) {page : Bytes} {es : List Entry} (h : Spec.LeafHolds c page es) (hpl : page.length = c.P.pagesize)
    (hes : Spec.Entries c.P.len es) (hso : Spec.Sorted c.P.primary es) {a b : Nat} (ha : Spec.At page 4 4 a) (hb : Spec.At page 8 4 b) (num : Nat) (key : Bytes)
    (hroom : (⟨num, key⟩ : Entry) ∈ es → es.erase ⟨num, key⟩ ≠ [] → Spec.Room c (es.erase ⟨num, key⟩)) :
    ((⟨num, key⟩ : Entry) ∉ es ∧ leafDelete c.P page num key = .ok .absent) ∨
    ((⟨num, key⟩ : Entry) ∈ es ∧ es.erase ⟨num, key⟩ = [] ∧ leafDelete c.P page num key = .ok .emptied) ∨
    ((⟨num, key⟩ : Entry) ∈ es ∧ es.erase ⟨num, key⟩ ≠ [] ∧ ∃ page' last, leafDelete c.P page num key = .ok (.kept (some page') last) ∧
      page'.length = c.P.pagesize ∧ Spec.LeafHolds c page' (es.erase ⟨num, key⟩) ∧ Spec.At page' 4 4 a ∧ Spec.At page' 8 4 b ∧
      ((last = none ∧ (es.erase ⟨num, key⟩).getLast? = es.getLast?) ∨
        (∃ l, last = some l ∧ (es.erase ⟨num, key⟩).getLast? = some l ∧ es.getLast? = some ⟨num, key⟩))) := by
  have hps := hs.page
  have hu := holds_unpack h (by omega)
  by_cases hin : (⟨num, key⟩ : Entry) ∈ es
  · right
    obtain ⟨fl, hf1, hf2⟩ := unpack_flags hs.key.1 hu
    obtain ⟨i, h1, h2, h3⟩ := findEntry_some hin
    have he := removed_erase h3
    have hunf : leafDelete c.P page num key = if es.erase ⟨num, key⟩ = [] then .ok .emptied else
        (pack c.P.primary c.P.len c.P.pagesize ((es.getLast?.map entryBytes).getD []) (es.erase ⟨num, key⟩) page >>= fun r =>
          .ok (.kept (r.map (fun p => setHdr p fl a b)) (if i = es.length - 1 then (es.erase ⟨num, key⟩).getLast? else none))) := by
      unfold leafDelete
      rw [hf1, Outcome.ok_bind, rd_at ha, Outcome.ok_bind, rd_at hb, Outcome.ok_bind, hu, Outcome.ok_bind, h1, ← he]
    by_cases hne : es.erase ⟨num, key⟩ = []
    · exact .inl ⟨hin, hne, by rw [hunf, if_pos hne]⟩
    · right
      refine ⟨hin, hne, ?_⟩
      have hroom := hroom hin hne
      have hsn := removed_sorted h3 hso
      have hesn : Spec.Entries c.P.len (es.erase ⟨num, key⟩) := fun x hx => hes x (List.mem_of_mem_erase hx)
      rw [he] at hsn
      have hrest : ((es.getLast?.map entryBytes).getD []) ≠ [] := by
        cases hg : es.getLast? with
        | none => rw [List.getLast?_eq_none_iff] at hg; rw [hg] at h2; cases h2
        | some x =>
          intro hh
          have := congrArg List.length hh
          rw [Option.map_some, Option.getD_some, entryBytes, List.length_append, le_length, List.length_nil] at this
          omega
      obtain ⟨w, hw⟩ := isWidth_exists c.P.len hs.key.2 _ hesn
      obtain ⟨q1, _⟩ := pack_sorted c.P.primary c.P.len c.P.pagesize ((es.getLast?.map entryBytes).getD []) _ page hs.key.1 hs.key.2 hesn hne hsn (.inl hrest) w hw
      obtain ⟨p, hpk⟩ := q1 (hroom.2 w hw).1
      rw [if_neg hne, hpk, Outcome.ok_bind] at hunf
      have hblt : b < 2 ^ 32 := by obtain ⟨_, _, _, _, q⟩ := hb; exact q
      have halt : a < 2 ^ 32 := by obtain ⟨_, _, _, _, q⟩ := ha; exact q
      obtain ⟨k1, k2⟩ := packed_holds hs _ _ page p fl a b hesn hne hpl hroom hpk (rd_ok hf1).2.2 hf2 hblt
      have hpl2 := (pack_keeps_links _ _ _ _ _ _ _ (by omega) hpl hpk).1
      obtain ⟨k3, k4⟩ := setHdr_at (p := p) (fl := fl) (by omega) halt hblt
      refine ⟨_, _, hunf, k2, k1, k3, k4, ?_⟩
      obtain ⟨u, v, g1, g2, g3⟩ := h3
      have hi : i = u.length := by
        have := congrArg List.length g2
        rw [g1] at this h2
        have hfe := h1
        rw [g1] at hfe
        -- position found is the first occurrence
        have : findEntry num key (u ++ ⟨num, key⟩ :: v) = some u.length := by
          clear this hfe h2 g2 g1
          induction u with
          | nil => simp [findEntry]
          | cons y u ih =>
            have hy : ¬ (key = y.key ∧ y.num = num) := by
              rintro ⟨rfl, rfl⟩
              exact g3 (List.mem_cons_self ..)
            rw [List.cons_append, findEntry, if_neg hy, ih (fun hh => g3 (List.mem_cons_of_mem _ hh))]
            rfl
        rw [hfe] at this
        cases this
        rfl
      have herase : es.erase ⟨num, key⟩ = u ++ v := by rw [g1, List.erase_append_right _ g3, List.erase_cons_head]
      rw [herase, hi, g1]
      cases v with
      | nil =>
        right
        rw [List.append_nil, if_pos (by rw [List.length_append]; rfl)]
        rw [herase, List.append_nil] at hne
        cases hg : u.getLast? with
        | none => rw [List.getLast?_eq_none_iff] at hg; exact absurd hg hne
        | some l => exact ⟨l, rfl, rfl, by simp⟩
      | cons y v =>
        left
        rw [if_neg (by simp only [List.length_append, List.length_cons]; omega)]
        refine ⟨rfl, ?_⟩
        rw [List.getLast?_append, List.getLast?_append, List.getLast?_cons_cons]
  · exact .inl ⟨hin, leaf_delete_absent c.P page es num key hs.key.1 (by omega) hu hin⟩

end Verif.Index
