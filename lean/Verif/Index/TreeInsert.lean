import Verif.Index.TreeDelete

/-! # Lemmas: adding an entry below a page -/

namespace Verif.Index
open Verif Blob

/-- What `leafWrite` does to a leaf that has room. -/
theorem leafWrite_fits {c : Conf} (hs : Spec.Sizes c) {page : Bytes} {es : List Entry} (h : Spec.LeafHolds c page es) (hpl : page.length = c.P.pagesize)
    (hes : Spec.Entries c.P.len es) (hso : Spec.Sorted c.P.primary es) {a b : Nat} (ha : Spec.At page 4 4 a) (hb : Spec.At page 8 4 b) (junk : Bytes) (num : Nat) (key : Bytes)
    (hk : key.length = c.P.len) (hn : num < 2 ^ 32) (hp : c.P.primary = true → ∀ x ∈ es, x.key ≠ key) (hnew : (⟨num, key⟩ : Entry) ∉ es)
    (hroom : ∀ new, Spec.Inserted ⟨num, key⟩ es new → Spec.Room c new ∧ Spec.EndsApart new) :
    ∃ new page' last fl, Spec.Inserted ⟨num, key⟩ es new ∧ Spec.Sorted c.P.primary new ∧ Spec.Entries c.P.len new ∧ rd page 0 2 = .ok fl ∧ fl &&& 2 ≠ 0 ∧
      leafWrite c.P page junk num key = .ok (.fits page' last) ∧
      page'.length = c.P.pagesize ∧ Spec.LeafHolds c page' new ∧ Spec.At page' 4 4 a ∧ Spec.At page' 8 4 b ∧
      ((last = none ∧ new.getLast? = es.getLast?) ∨
        (last = some ⟨num, key⟩ ∧ new.getLast? = some ⟨num, key⟩ ∧ ∀ x ∈ es, Spec.Before x.key key)) := by
  have hps := hs.page
  have hu := holds_unpack h (by omega)
  obtain ⟨fl, hf1, hf2⟩ := unpack_flags hs.key.1 hu
  have hkl : ∀ x ∈ es, x.key.length = key.length := fun x hx => by rw [(hes x hx).1, hk]
  rcases place_spec (num := num) hso hkl with ⟨a, x, b, g1, g2, _, g4, _⟩ | ⟨i, h1, h2, h3⟩
  · exfalso
    rcases g4 with g4 | g4
    · exact hp g4 x (by rw [g1]; simp) g2
    · apply hnew
      rw [g1]
      cases x
      cases g2
      cases g4
      simp
  · have hmem := inserted_mem h3
    have hsn := inserted_sorted h3 hso hp
    obtain ⟨hr, hend⟩ := hroom _ h3
    have hbef : i = es.length → ∀ x ∈ es, Spec.Before x.key key := by
      rintro rfl
      clear hr hend hmem hsn hnew hu h hes hso hroom hp h3
      induction es with
      | nil => intro x hx; cases hx
      | cons e es ih =>
        rw [place] at h1
        split at h1
        · split at h1
          · cases h1
          · cases h1
        · rename_i hne
          split at h1
          · cases h1
          · rename_i hnl
            cases hp : place c.P.primary num key es with
            | ok j =>
              rw [hp, Outcome.ok_bind] at h1
              simp only [List.length_cons, Outcome.ok.injEq] at h1
              have hj : j = es.length := by omega
              subst hj
              intro x hx
              rcases List.mem_cons.mp hx with rfl | hx
              · rcases before_total (hkl x (List.mem_cons_self ..)) with g | g | g
                · exact g
                · exact absurd g.symm hne
                · rw [← lessB_iff] at g; exact absurd g hnl
              · exact ih (fun y hy => hkl y (List.mem_cons_of_mem _ hy)) hp (Nat.le_refl _) x hx
            | throw => rw [hp] at h1; cases h1
            | ub => rw [hp] at h1; cases h1
    obtain ⟨new, hnewdef⟩ : ∃ new, new = es.take i ++ (⟨num, key⟩ : Entry) :: es.drop i := ⟨_, rfl⟩
    have hesn : Spec.Entries c.P.len new := by
      intro x hx
      rw [hnewdef] at hx
      rcases (hmem x).mp hx with rfl | hx
      · exact ⟨hk, hn⟩
      · exact hes x hx
    have hne : new ≠ [] := by rw [hnewdef]; simp
    have hlast : i = es.length ∨ (i < es.length ∧ new.getLast? = es.getLast?) := by
      rcases Nat.lt_or_ge i es.length with hlt | hge
      · right
        refine ⟨hlt, ?_⟩
        rw [hnewdef, List.getLast?_append, List.getLast?_cons, List.getLast?_drop, if_neg (by omega)]
        cases hg : es.getLast? with
        | none => rw [List.getLast?_eq_none_iff] at hg; rw [hg] at hlt; cases hlt
        | some x => simp
      · left; omega
    have hnotlast : i = es.length → new.getLast? = some ⟨num, key⟩ := by
      rintro rfl
      rw [hnewdef]
      simp
    rw [← hnewdef] at h3 hsn hr hend
    obtain ⟨w, hw⟩ := isWidth_exists c.P.len hs.key.2 _ hesn
    obtain ⟨q1, _⟩ := pack_sorted c.P.primary c.P.len c.P.pagesize [] new page hs.key.1 hs.key.2 hesn hne hsn (.inr hend) w hw
    obtain ⟨p, hpk⟩ := q1 (hr.2 w hw).1
    have hunf : leafWrite c.P page junk num key = .ok (.fits (setHdr p fl a b) (if i = es.length then new.getLast? else none)) := by
      unfold leafWrite
      rw [hf1, Outcome.ok_bind, rd_at ha, Outcome.ok_bind, rd_at hb, Outcome.ok_bind, hu, Outcome.ok_bind, h1, Outcome.ok_bind, ← hnewdef]
      dsimp only
      rw [hpk, Outcome.ok_bind]
    have hblt : b < 2 ^ 32 := by obtain ⟨_, _, _, _, q⟩ := hb; exact q
    have halt : a < 2 ^ 32 := by obtain ⟨_, _, _, _, q⟩ := ha; exact q
    obtain ⟨k1, k2⟩ := packed_holds hs _ _ page p fl a b hesn hne hpl hr hpk (rd_ok hf1).2.2 hf2 hblt
    have hpl2 := (pack_keeps_links _ _ _ _ _ _ _ (by omega) hpl hpk).1
    obtain ⟨k3, k4⟩ := setHdr_at (p := p) (fl := fl) (by omega) halt hblt
    refine ⟨new, _, _, fl, h3, hsn, hesn, hf1, hf2, hunf, k2, k1, k3, k4, ?_⟩
    rcases hlast with hi | ⟨hi, hg⟩
    · right
      rw [if_pos hi, hnotlast hi]
      exact ⟨rfl, rfl, hbef hi⟩
    · left
      rw [if_neg (by omega)]
      exact ⟨rfl, hg⟩

/-- Entries of branch pages are entries of the index. -/
theorem ends_mem {c : Conf} {f : Bytes} (bs : List (List (Spec.Pg Spec.Ref))) (leaves : List (Spec.Pg Entry)) (h : Spec.Rows c f bs leaves) (l : Entry) (n : Nat)
    (hl : (some l, n) ∈ Spec.ends bs leaves) : l ∈ Spec.contents leaves := by
  induction bs generalizing l n with
  | nil =>
    obtain ⟨p, hp, h1⟩ := List.mem_map.mp hl
    exact List.mem_flatMap.mpr ⟨p, hp, List.mem_of_getLast? (congrArg Prod.fst h1)⟩
  | cons row bs ih =>
    obtain ⟨p, hp, h1⟩ := List.mem_map.mp hl
    obtain ⟨z, hz1, hz2⟩ := Option.map_eq_some_iff.mp (congrArg Prod.fst h1)
    refine ih h.2.2 l z.2 ?_
    rw [← h.2.1]
    exact List.mem_map.mpr ⟨z, List.mem_flatMap.mpr ⟨p, hp, List.mem_of_getLast? hz1⟩, by rw [hz2]⟩

/-- What a leaf reports of its last entry. -/
def wrote : Option Entry → Placed
  | none => .done
  | some e => .newLast e

/-- What becomes of an entry of the row above. -/
def lift (g : Placed) (l : Spec.Ref) : Spec.Ref :=
  match g with
  | .newLast e => (e, l.2)
  | _ => l

/-- What adding an entry below page `no`, whose last entry is `l`, does when it fits. -/
structure Added (c : Conf) (num : Nat) (key : Bytes) (f : Bytes) (bs : List (List (Spec.Pg Spec.Ref))) (leaves : List (Spec.Pg Entry)) (RA : List Spec.Ref) (l : Entry) (no : Nat)
    (RB : List Spec.Ref) (f' : Bytes) (g : Placed) (bs' : List (List (Spec.Pg Spec.Ref))) (leaves' : List (Spec.Pg Entry)) : Prop where
  rows : Spec.Rows c f' bs' leaves'
  ordered : Spec.Ordered c leaves'
  contents : Spec.Inserted ⟨num, key⟩ (Spec.contents leaves) (Spec.contents leaves')
  numbers : Spec.numbers bs' leaves' = Spec.numbers bs leaves
  elsewhere : Spec.Elsewhere c (Spec.numbers bs leaves) f f'
  head : f'.take 4 = f.take 4
  ends : Spec.ends bs' leaves' = (RA ++ lift g (l, no) :: RB).map up
  done : g = .done ∨ (g = .newLast ⟨num, key⟩ ∧ Spec.Before l.key key)
  depth : bs'.length = bs.length

theorem belongs_sorted {A B : List (Spec.Pg Entry)} {p : Spec.Pg Entry} {l : Entry} {key : Bytes} {RA RB : List Spec.Ref} {c : Conf}
    (ho : Spec.Ordered c (A ++ p :: B)) (hA : A.map (fun p => (p.ents.getLast?, p.no)) = RA.map up) (hp : p.ents.getLast? = some l)
    (hB : B.map (fun p => (p.ents.getLast?, p.no)) = RB.map up) (hb : ∀ r ∈ RA, Spec.Before r.1.key key) (hl : ¬ Spec.Before l.key key ∨ RB = []) :
    Spec.Belongs key A p B := by
  refine ⟨?_, ?_⟩
  · intro q hq x hx
    have : (q.ents.getLast?, q.no) ∈ RA.map up := by rw [← hA]; exact List.mem_map.mpr ⟨q, hq, rfl⟩
    obtain ⟨r, hr, hru⟩ := List.mem_map.mp this
    have h1 : q.ents.getLast? = some r.1 := (congrArg Prod.fst hru).symm
    rcases sorted_last (ho.entries q (List.mem_append_left _ hq)).2.1 h1 hx with h2 | h2
    · exact before_trans h2 (hb r hr)
    · rw [h2]; exact hb r hr
  · rcases hl with hl | hl
    · exact .inr ⟨l, List.mem_of_getLast? hp, hl⟩
    · rw [hl, List.map_nil, List.map_eq_nil_iff] at hB
      exact .inl hB

theorem before_of_not {a b d : Bytes} (hl : a.length = b.length) (h1 : ¬ Spec.Before a b) (h2 : Spec.Before a d) : Spec.Before b d := by
  rcases before_total hl with h | h | h
  · exact absurd h h1
  · exact h ▸ h2
  · exact before_trans h h2

theorem added_leaf {c : Conf} (hs : Spec.Sizes c) {f : Bytes} {leaves : List (Spec.Pg Entry)} {num : Nat} {key : Bytes} (junk : Bytes) (fuel : Nat)
    (hk : key.length = c.P.len) (hn : num < 2 ^ 32) (hprim : c.P.primary = true → ∀ x ∈ Spec.contents leaves, x.key ≠ key) (hnew : (⟨num, key⟩ : Entry) ∉ Spec.contents leaves)
    (hrows : Spec.Rows c f [] leaves) (hpl : Spec.Placed c f (Spec.numbers [] leaves)) (ho : Spec.Ordered c leaves)
    {RA RB : List Spec.Ref} {l : Entry} {no : Nat} (hends : Spec.ends [] leaves = (RA ++ (l, no) :: RB).map up)
    (hb : ∀ r ∈ RA, Spec.Before r.1.key key) (hl : ¬ Spec.Before l.key key ∨ RB = [])
    (hroom : ∀ A p B, leaves = A ++ p :: B → Spec.Belongs key A p B → ∀ new, Spec.Inserted ⟨num, key⟩ p.ents new → Spec.Room c new ∧ Spec.EndsApart new) :
    ∃ f' g bs' leaves', writeAt c junk num key (fuel + 1) f (no * c.P.pagesize) = .ok (some (f', g)) ∧
      Added c num key f [] leaves RA l no RB f' g bs' leaves' := by
  obtain ⟨A, p, B, rfl, hA, hp, rfl, hB⟩ := ends_split hends
  have hbel := belongs_sorted ho hA hp hB hb hl
  have hps := hs.page
  have hin : ∀ q ∈ A ++ p :: B, 0 < q.no ∧ (q.no + 1) * c.P.pagesize ≤ f.length := by
    intro q hq
    exact hpl.inside _ (List.mem_append_right _ (List.mem_map.mpr ⟨q, hq, rfl⟩))
  have hnd : ((A ++ p :: B).map (·.no)).Nodup := hpl.nodup
  have hmem : p ∈ A ++ p :: B := List.mem_append_right _ (List.mem_cons_self ..)
  have hpin := hin p hmem
  have hplen := bytesOf_length hpin.2
  obtain ⟨hr1, hr2⟩ := (row_append A (p :: B) none none).mp hrows
  have hleaf : Spec.LeafAt c f p (lastNo none A) (firstNo B none) := hr2.1
  obtain ⟨ho1, ho2, ho3⟩ := ho.entries p hmem
  have hpw := List.pairwise_append.mp ho.rows
  have hsubc : ∀ x ∈ p.ents, x ∈ Spec.contents (A ++ p :: B) := fun x hx => List.mem_flatMap.mpr ⟨p, hmem, hx⟩
  obtain ⟨new, page', last, fl, i1, i2, i3, i4, i5, i6, i7, i8, i9, i10, i11⟩ := leafWrite_fits hs hleaf.holds hplen ho1 ho2 hleaf.prev hleaf.next junk num key hk hn
    (fun h x hx => hprim h x (hsubc x hx)) (fun h => hnew (hsubc _ h)) (hroom A p B rfl hbel)
  obtain ⟨hw1, hw2⟩ := row_write (leaf_kind c) hs A B p ⟨p.no, new⟩ hrows hin hnd page' i7 rfl
      (fun f2 hf2 => ⟨by rw [hf2]; exact i8, by rw [hf2]; exact i9, by rw [hf2]; exact i10⟩)
  have hdl : writeLeaf c junk f (p.no * c.P.pagesize) (Spec.bytesOf c.P.pagesize f p.no) num key =
      .ok (setData f (p.no * c.P.pagesize) page', wrote last) := by
    unfold writeLeaf
    rw [i4, Outcome.ok_bind, rd_at hleaf.prev, Outcome.ok_bind, rd_at hleaf.next, Outcome.ok_bind, i6]
    cases last <;> rfl
  have hstart : writeAt c junk num key (fuel + 1) f (p.no * c.P.pagesize) =
      .ok (some (setData f (p.no * c.P.pagesize) page', wrote last)) := by
    rw [writeAt, getData_page hpin.2, Outcome.ok_bind, i4, Outcome.ok_bind, if_pos i5, hdl, Outcome.ok_bind]
  -- after the leaf everything is behind the key
  have hBk : ∀ q ∈ B, ∀ y ∈ q.ents, Spec.Before key y.key := by
    intro q hq y hy
    rcases hl with hl | hl
    · have h1 := (List.pairwise_cons.mp hpw.2.1).1 q hq l (List.mem_of_getLast? hp) y hy
      exact before_of_not (by rw [(ho1 l (List.mem_of_getLast? hp)).1, hk]) hl h1
    · rw [hl, List.map_nil, List.map_eq_nil_iff] at hB
      rw [hB] at hq; cases hq
  refine ⟨_, _, [], A ++ ⟨p.no, new⟩ :: B, hstart, ?_⟩
  refine ⟨hw1, ⟨?_, ?_⟩, ?_, ?_, ?_, write_take hs hpin.1 hpin.2 i7, ?_, ?_, rfl⟩
  · intro q hq
    rcases List.mem_append.mp hq with hq | hq
    · exact ho.entries q (List.mem_append_left _ hq)
    · rcases List.mem_cons.mp hq with rfl | hq
      · refine ⟨i3, i2, ?_⟩
        intro h0
        have := (inserted_mem i1 ⟨num, key⟩).mpr (.inl rfl)
        dsimp only at h0
        rw [h0] at this
        cases this
      · exact ho.entries q (List.mem_append_right _ (List.mem_cons_of_mem _ hq))
  · refine List.pairwise_append.mpr ⟨hpw.1, List.pairwise_cons.mpr ⟨?_, (List.pairwise_cons.mp hpw.2.1).2⟩, ?_⟩
    · intro q hq x hx y hy
      rcases (inserted_mem i1 x).mp hx with rfl | hx
      · exact hBk q hq y hy
      · exact (List.pairwise_cons.mp hpw.2.1).1 q hq x hx y hy
    · intro q hq s hs x hx y hy
      rcases List.mem_cons.mp hs with rfl | hs
      · rcases (inserted_mem i1 y).mp hy with rfl | hy
        · exact hbel.1 q hq x hx
        · exact hpw.2.2 q hq p (List.mem_cons_self ..) x hx y hy
      · exact hpw.2.2 q hq s (List.mem_cons_of_mem _ hs) x hx y hy
  · obtain ⟨u, v, e1, e2, e3, e4⟩ := i1
    refine ⟨Spec.contents A ++ u, v ++ Spec.contents B, ?_, ?_, ?_, ?_⟩
    · unfold Spec.contents
      rw [List.flatMap_append, List.flatMap_cons, e1]
      simp only [List.append_assoc]
    · unfold Spec.contents
      rw [List.flatMap_append, List.flatMap_cons, e2]
      simp only [List.append_assoc, List.cons_append]
    · intro x hx
      rcases List.mem_append.mp hx with hx | hx
      · obtain ⟨q, hq, hxq⟩ := List.mem_flatMap.mp hx
        exact hbel.1 q hq x hxq
      · exact e3 x hx
    · intro x hx
      rcases List.mem_append.mp hx with hx | hx
      · exact e4 x hx
      · obtain ⟨q, hq, hxq⟩ := List.mem_flatMap.mp hx
        exact .inl (hBk q hq x hxq)
  · unfold Spec.numbers
    rw [List.map_append, List.map_append, List.map_cons, List.map_cons]
  · refine elsewhere_mono hw2 ?_
    intro n hn
    rw [List.mem_singleton] at hn
    rw [hn]
    exact List.mem_append_right _ (List.mem_map.mpr ⟨p, hmem, rfl⟩)
  · rw [Spec.ends, List.map_append, List.map_cons, hA, hB]
    rcases i11 with ⟨rfl, h9⟩ | ⟨rfl, h9, h10⟩
    · dsimp only [lift, wrote]
      rw [h9, hp, List.map_append, List.map_cons]; rfl
    · dsimp only [lift, wrote]
      rw [h9, List.map_append, List.map_cons]; rfl
  · rcases i11 with ⟨rfl, h9⟩ | ⟨rfl, h9, h10⟩
    · exact .inl rfl
    · exact .inr ⟨rfl, h10 l (List.mem_of_getLast? hp)⟩

/-- Adding an entry below a page of the top row. -/
theorem ins_sub {c : Conf} (hs : Spec.Sizes c) {num : Nat} {key : Bytes} (junk : Bytes) (hk : key.length = c.P.len) (hn : num < 2 ^ 32) (bs : List (List (Spec.Pg Spec.Ref))) :
    ∀ (fuel : Nat) (f : Bytes) (leaves : List (Spec.Pg Entry)) (RA RB : List Spec.Ref) (l : Entry) (no : Nat), bs.length < fuel →
    (c.P.primary = true → ∀ x ∈ Spec.contents leaves, x.key ≠ key) → (⟨num, key⟩ : Entry) ∉ Spec.contents leaves →
    Spec.Rows c f bs leaves → Spec.Placed c f (Spec.numbers bs leaves) → Spec.Ordered c leaves →
    Spec.ends bs leaves = (RA ++ (l, no) :: RB).map up →
    (∀ r ∈ RA, Spec.Before r.1.key key) → (¬ Spec.Before l.key key ∨ RB = []) →
    (∀ A p B, leaves = A ++ p :: B → Spec.Belongs key A p B → ∀ new, Spec.Inserted ⟨num, key⟩ p.ents new → Spec.Room c new ∧ Spec.EndsApart new) →
    ∃ f' g bs' leaves', writeAt c junk num key fuel f (no * c.P.pagesize) = .ok (some (f', g)) ∧
      Added c num key f bs leaves RA l no RB f' g bs' leaves' := by
  induction bs with
  | nil =>
    intro fuel f leaves RA RB l no hfuel hprim hnew hrows hpl ho hends hb hl hroom
    obtain ⟨fuel, rfl⟩ : ∃ k, fuel = k + 1 := ⟨fuel - 1, by simp at hfuel; omega⟩
    exact added_leaf hs junk fuel hk hn hprim hnew hrows hpl ho hends hb hl hroom
  | cons row bs ih =>
    intro fuel f leaves RA RB l no hfuel hprim hnew hrows hpl ho hends hb hl hroom
    obtain ⟨fuel, rfl⟩ : ∃ k, fuel = k + 1 := ⟨fuel - 1, by simp at hfuel; omega⟩
    have hpwAll := ends_pairwise bs leaves hrows.2.2 ho
    obtain ⟨A, p, B, rfl, hA, hp, rfl, hB⟩ := ends_split hends
    obtain ⟨hrow, hsub, hbelow⟩ := hrows
    rw [numbers_cons] at hpl
    have hnds := List.nodup_append.mp hpl.nodup
    have hps := hs.page
    have hin : ∀ q ∈ A ++ p :: B, 0 < q.no ∧ (q.no + 1) * c.P.pagesize ≤ f.length := by
      intro q hq
      exact hpl.inside _ (List.mem_append_left _ (List.mem_map.mpr ⟨q, hq, rfl⟩))
    have hnd : ((A ++ p :: B).map (·.no)).Nodup := hnds.1
    have hmem : p ∈ A ++ p :: B := List.mem_append_right _ (List.mem_cons_self ..)
    have hpin := hin p hmem
    have hplen := bytesOf_length hpin.2
    obtain ⟨l0, hl0, rfl⟩ := Option.map_eq_some_iff.mp hp
    -- the entry to follow
    obtain ⟨E1, x, E2, hE, hE1, hx⟩ : ∃ E1 x E2, p.ents = E1 ++ x :: E2 ∧ (∀ r ∈ E1, Spec.Before r.1.key key) ∧
        (¬ Spec.Before x.1.key key ∨ (Spec.Before x.1.key key ∧ E2 = [] ∧ B = [])) := by
      by_cases hlb : Spec.Before l0.1.key key
      · have hRB : RB = [] := hl.resolve_left (fun h => h hlb)
        rw [hRB, List.map_nil, List.map_eq_nil_iff] at hB
        obtain ⟨N, z, hz⟩ := (List.eq_nil_or_concat p.ents).resolve_left (by intro hn; rw [hn] at hl0; cases hl0)
        rw [List.concat_eq_append] at hz
        have hzl : z = l0 := by rw [hz, List.getLast?_concat] at hl0; cases hl0; rfl
        subst hzl
        refine ⟨N, z, [], hz, ?_, .inr ⟨hlb, rfl, hB⟩⟩
        intro r hr
        rw [← hsub, List.pairwise_map] at hpwAll
        have hpp := (List.pairwise_flatMap.mp hpwAll).1 p hmem
        rw [hz] at hpp
        exact before_trans ((List.pairwise_append.mp hpp).2.2 r hr z (List.mem_singleton.mpr rfl) _ _ rfl rfl) hlb
      · obtain ⟨E1, x, E2, h1, h2, h3⟩ := split_first (key := key) p.ents l0 hl0 hlb
        exact ⟨E1, x, E2, h1, h2, .inl h3⟩
    -- the page
    obtain ⟨hr1, hr2⟩ := (row_append A (p :: B) none none).mp hrow
    obtain ⟨flags, rest, hb1, hb2, hb3, hb4, hb5, hb6, hb7⟩ := branchAt_iff.mp hr2.1
    change Spec.linkTo c (firstNo B none) < 2 ^ 32 at hb5
    change Spec.bytesOf c.P.pagesize f p.no = hd flags p.ents.length (Spec.linkTo c (lastNo none A)) (Spec.linkTo c (firstNo B none)) ++ _ at hb7
    rw [hE] at hb3 hb6 hb7
    -- the row below
    rw [List.flatMap_append, List.flatMap_cons, hE] at hsub
    have hends' : Spec.ends bs leaves = ((A.flatMap (·.ents) ++ E1) ++ x :: (E2 ++ B.flatMap (·.ents))).map up := by
      rw [← hsub]
      simp only [List.append_assoc, List.cons_append]
      rfl
    rw [hends', List.pairwise_map] at hpwAll
    have hpw2 := List.pairwise_append.mp hpwAll
    have hRA : ∀ r ∈ A.flatMap (·.ents) ++ E1, Spec.Before r.1.key key := by
      intro r hr
      rcases List.mem_append.mp hr with hr | hr
      · obtain ⟨q, hq, hrq⟩ := List.mem_flatMap.mp hr
        have : ((q.ents.getLast?).map (·.1), q.no) ∈ RA.map up := by rw [← hA]; exact List.mem_map.mpr ⟨q, hq, rfl⟩
        obtain ⟨s, hs1, hs2⟩ := List.mem_map.mp this
        have h1 : (q.ents.getLast?).map (·.1) = some s.1 := (congrArg Prod.fst hs2).symm
        obtain ⟨t, ht1, ht2⟩ := Option.map_eq_some_iff.mp h1
        have hbs := hb s hs1
        rw [← ht2] at hbs
        have hpwA : q.ents.Pairwise (fun s t => Spec.Before s.1.key t.1.key) := by
          have := (List.pairwise_flatMap.mp (List.pairwise_append.mp hpw2.1).1).1 q hq
          exact this.imp (fun h => h _ _ rfl rfl)
        obtain ⟨N, z, hz⟩ := (List.eq_nil_or_concat q.ents).resolve_left (by intro hn; rw [hn] at hrq; cases hrq)
        rw [List.concat_eq_append] at hz
        rw [hz, List.getLast?_concat] at ht1
        cases ht1
        rw [hz] at hrq hpwA
        rcases List.mem_append.mp hrq with hrq | hrq
        · exact before_trans ((List.pairwise_append.mp hpwA).2.2 r hrq t (List.mem_singleton.mpr rfl)) hbs
        · rw [List.mem_singleton.mp hrq]; exact hbs
      · exact hE1 r hr
    have hplb : Spec.Placed c f (Spec.numbers bs leaves) :=
      ⟨hnds.2.1, fun n hn => hpl.inside n (List.mem_append_right _ hn), hpl.small⟩
    have hx' : ¬ Spec.Before x.1.key key ∨ E2 ++ B.flatMap (·.ents) = [] := by
      rcases hx with h | ⟨_, h1, h2⟩
      · exact .inl h
      · right; rw [h1, h2]; rfl
    obtain ⟨f1, g, bs1, leaves1, hdel, R⟩ := ih fuel f leaves _ _ x.1 x.2 (by simp at hfuel; omega) hprim hnew hbelow hplb ho hends' hRA hx' hroom
    -- the row is as before
    have hfr : ∀ q ∈ A ++ p :: B, Spec.bytesOf c.P.pagesize f1 q.no = Spec.bytesOf c.P.pagesize f q.no := by
      intro q hq
      refine elsewhere_page (by omega) R.elsewhere (hin q hq).1 ?_
      intro hh
      exact hnds.2.2 _ (List.mem_map.mpr ⟨q, hq, rfl⟩) _ hh rfl
    have hrow1 := row_frame (branch_kind c) (A ++ p :: B) none none hrow hfr
    have hlen1 := R.elsewhere.1
    have hin1 : ∀ q ∈ A ++ p :: B, 0 < q.no ∧ (q.no + 1) * c.P.pagesize ≤ f1.length := by rw [hlen1]; exact hin
    -- the way down
    obtain ⟨_, k2, k3, _, _⟩ := rd_hd flags (E1 ++ x :: E2).length (Spec.linkTo c (lastNo none A)) (Spec.linkTo c (firstNo B none)) ((E1 ++ x :: E2).flatMap (Spec.refBytes c) ++ rest) hb1 hb3 hb4 hb5
    have hxmem : up x ∈ Spec.ends bs leaves := by rw [hends']; simp
    have hxs : Spec.linkTo c (some x.2) < 2 ^ 32 := by
      refine link_lt hs hpl.small ?_
      intro m hm
      cases hm
      have : (x.2) ∈ Spec.numbers bs leaves := by
        have h1 := hxmem
        unfold Spec.numbers
        cases bs with
        | nil =>
          obtain ⟨q, hq, hq2⟩ := List.mem_map.mp h1
          exact List.mem_append_right _ (List.mem_map.mpr ⟨q, hq, congrArg Prod.snd hq2⟩)
        | cons r bs =>
          obtain ⟨q, hq, hq2⟩ := List.mem_map.mp h1
          rw [List.map_cons, List.flatten_cons]
          exact List.mem_append_left _ (List.mem_append_left _ (List.mem_map.mpr ⟨q, hq, congrArg Prod.snd hq2⟩))
      exact (hplb.inside _ this).2
    have hfollow : follow c (hd flags (E1 ++ x :: E2).length (Spec.linkTo c (lastNo none A)) (Spec.linkTo c (firstNo B none)) ++
          ((E1 ++ x :: E2).flatMap (Spec.refBytes c) ++ rest)) key (E1 ++ x :: E2).length = .ok E1.length := by
      unfold follow
      rcases hx with hx | ⟨hx, rfl, hBn⟩
      · rw [seek_some hk E1 x E2 _ _ rest 0 hb6 rfl (by rw [hd_length]; simp [Conf.slot]) hE1 hx, Outcome.ok_bind]
        dsimp only
        rw [Nat.zero_add, if_neg]
        rintro ⟨h1, h2⟩
        exact hprim h2 x.1 (ends_mem bs leaves hbelow x.1 x.2 hxmem) (of_decide_eq_true h1).symm
      · rw [seek_none (E1 ++ [x]) _ _ rest 0 hb6 rfl (by rw [hd_length]; simp [Conf.slot]) (by
          intro r hr
          rcases List.mem_append.mp hr with hr | hr
          · exact hE1 r hr
          · rw [List.mem_singleton.mp hr]; exact hx), Outcome.ok_bind]
        dsimp only
        rw [if_neg (by simp)]
        simp
    have hdown : writeAt c junk num key (fuel + 1) f (p.no * c.P.pagesize) =
        (writeUp c f1 (p.no * c.P.pagesize) (hd flags (E1 ++ x :: E2).length (Spec.linkTo c (lastNo none A)) (Spec.linkTo c (firstNo B none)) ++
          ((E1 ++ x :: E2).flatMap (Spec.refBytes c) ++ rest)) (E1 ++ x :: E2).length E1.length (x.2 * c.P.pagesize) g >>= fun r => .ok (some r)) := by
      rw [writeAt, getData_page hpin.2, Outcome.ok_bind, hb7, k2, Outcome.ok_bind, if_neg (flag_low hb2).2, k3, Outcome.ok_bind, hfollow, Outcome.ok_bind,
        child_at flags _ _ _ E1 x E2 rest hb6, Outcome.ok_bind, ofLe_reverse_be 4 _ hxs, child_link, hdel, Outcome.ok_bind]
    have hRends := R.ends
    have hnums : ∀ row', row'.map (·.no) = (A ++ p :: B).map (·.no) → Spec.numbers (row' :: bs1) leaves1 = Spec.numbers ((A ++ p :: B) :: bs) leaves := by
      intro row' h
      rw [numbers_cons, numbers_cons, R.numbers, h]
    rcases R.done with rfl | ⟨rfl, hxb⟩
    · -- nothing to do
      refine ⟨f1, .done, (A ++ p :: B) :: bs1, leaves1, by rw [hdown, writeUp, Outcome.ok_bind], ?_⟩
      refine ⟨⟨hrow1, ?_, R.rows⟩, R.ordered, R.contents, hnums _ rfl, ?_, R.head, ?_, .inl rfl, by rw [List.length_cons, List.length_cons, R.depth]⟩
      · rw [hRends, List.flatMap_append, List.flatMap_cons, hE]
        simp only [lift, List.append_assoc, List.cons_append]
        rfl
      · rw [numbers_cons]
        exact elsewhere_mono R.elsewhere (fun n hn => List.mem_append_right _ hn)
      · rw [Spec.ends, List.map_append, List.map_cons, hA, hB, hp, List.map_append, List.map_cons]
        rfl
    · -- the entry is the new last one
      obtain ⟨rfl, rfl⟩ : E2 = [] ∧ B = [] := by
        rcases hx with h | ⟨_, h1, h2⟩
        · exact absurd hxb h
        · exact ⟨h1, h2⟩
      have hset := setRef_parts flags (E1 ++ [x]).length (Spec.linkTo c (lastNo none A)) (Spec.linkTo c (firstNo ([] : List (Spec.Pg Spec.Ref)) none)) E1 x [] rest hb6 ⟨num, key⟩ hk
      have hrefs : Refs c (E1 ++ [((⟨num, key⟩ : Entry), x.2)]) :=
        refs_append.mpr ⟨(refs_append.mp hb6).1, refs_cons.mpr ⟨⟨hk, hn⟩, fun r hr => (by cases hr)⟩⟩
      have hle : (E1 ++ [((⟨num, key⟩ : Entry), x.2)]).length = (E1 ++ [x]).length := by simp
      have q1 : (hd flags (E1 ++ [((⟨num, key⟩ : Entry), x.2)]).length (Spec.linkTo c (lastNo none A)) (Spec.linkTo c (firstNo ([] : List (Spec.Pg Spec.Ref)) none)) ++
          ((E1 ++ [((⟨num, key⟩ : Entry), x.2)]).flatMap (Spec.refBytes c) ++ rest)).length = c.P.pagesize := by
        rw [← hplen, hb7]
        simp only [List.length_append (bs := rest), List.length_append (as := hd _ _ _ _), hd_length, flat_length hb6, flat_length hrefs, hle]
      obtain ⟨v1, v2⟩ := row_write (branch_kind c) hs A [] p ⟨p.no, E1 ++ [((⟨num, key⟩ : Entry), x.2)]⟩ hrow1 hin1 hnd _ q1 rfl
        (fun f2 hf2 => branchAt_iff.mpr ⟨flags, rest, hb1, hb2, by rw [hle]; exact hb3, hb4, hb5, hrefs, hf2⟩)
      have v2' : Spec.Elsewhere c ((A ++ [p]).map (·.no)) f1 _ := elsewhere_mono v2 (fun n hn => List.mem_map.mpr ⟨p, hmem, (List.mem_singleton.mp hn).symm⟩)
      have hx0 : l0 = x := by rw [hE, List.getLast?_concat] at hl0; cases hl0; rfl
      refine ⟨_, .newLast ⟨num, key⟩, (A ++ [⟨p.no, E1 ++ [((⟨num, key⟩ : Entry), x.2)]⟩]) :: bs1, leaves1, ?_, ⟨⟨v1, ?_, ?_⟩, R.ordered, R.contents, hnums _ ?_, ?_, ?_, ?_, .inr ⟨rfl, ?_⟩,
        by rw [List.length_cons, List.length_cons, R.depth]⟩⟩
      · rw [hdown, writeUp, hset, Outcome.ok_bind, Outcome.ok_bind, if_pos (by simp), hle]
      · rw [hRends, List.flatMap_append, List.flatMap_cons]
        simp [lift]
        rfl
      · refine rows_frame bs1 leaves1 R.rows ?_
        intro n hn
        rw [R.numbers] at hn
        refine elsewhere_page (by omega) v2' (hplb.inside n hn).1 ?_
        intro hh
        exact hnds.2.2 _ hh _ hn rfl
      · rw [List.map_append, List.map_append]; rfl
      · rw [numbers_cons]
        exact elsewhere_trans (elsewhere_mono R.elsewhere (fun n hn => List.mem_append_right _ hn)) (elsewhere_mono v2' (fun n hn => List.mem_append_left _ hn))
      · rw [write_take hs hpin.1 (by rw [hlen1]; exact hpin.2) q1, R.head]
      · rw [Spec.ends, List.map_append, hA]
        have : RB = [] := by
          rw [List.map_nil] at hB
          exact List.map_eq_nil_iff.mp hB.symm
        rw [this, List.map_append]
        simp [lift, up]
      · rw [hx0]; exact hxb

end Verif.Index
