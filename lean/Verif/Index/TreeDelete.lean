import Verif.Index.TreeFree

/-! # Lemmas: removing an entry below a page -/

namespace Verif.Index
open Verif Blob

/-- An entry of a branch page as `Spec.ends` shows it. -/
def up (r : Spec.Ref) : Option Entry × Nat := (some r.1, r.2)

theorem up_inj {r s : Spec.Ref} (h : up r = up s) : r = s := by
  obtain ⟨a, b⟩ := r
  obtain ⟨d, e⟩ := s
  cases h
  rfl

/-- A page of a row is written. -/
theorem row_write {c : Conf} {α : Type} {X : Bytes → Spec.Pg α → Option Nat → Option Nat → Prop} (K : Kind c X) (hs : Spec.Sizes c) {f : Bytes}
    (A B : List (Spec.Pg α)) (p p' : Spec.Pg α) (h : Spec.Row (X f) none (A ++ p :: B) none)
    (hin : ∀ q ∈ A ++ p :: B, 0 < q.no ∧ (q.no + 1) * c.P.pagesize ≤ f.length) (hnd : ((A ++ p :: B).map (·.no)).Nodup) (page : Bytes)
    (hl : page.length = c.P.pagesize) (hno : p'.no = p.no)
    (hX : ∀ f2, Spec.bytesOf c.P.pagesize f2 p'.no = page → X f2 p' (lastNo none A) (firstNo B none)) :
    Spec.Row (X (setData f (p.no * c.P.pagesize) page)) none (A ++ p' :: B) none ∧
      Spec.Elsewhere c [p.no] f (setData f (p.no * c.P.pagesize) page) := by
  have hps := hs.page.1
  have hp := hin p (List.mem_append_right _ (List.mem_cons_self ..))
  have hel : Spec.Elsewhere c [p.no] f (setData f (p.no * c.P.pagesize) page) :=
    elsewhere_set (o := 0) (b := page) hp.2 (by omega)
  refine ⟨?_, hel⟩
  have hfr : ∀ q ∈ A ++ p :: B, q.no ≠ p.no →
      Spec.bytesOf c.P.pagesize (setData f (p.no * c.P.pagesize) page) q.no = Spec.bytesOf c.P.pagesize f q.no := by
    intro q hq hne
    exact elsewhere_page (by omega) hel (hin q hq).1 (by simpa using hne)
  rw [List.map_append, List.map_cons] at hnd
  have hnd' := List.nodup_append.mp hnd
  obtain ⟨h1, h2⟩ := (row_append A (p :: B) none none).mp h
  refine (row_append A (p' :: B) none none).mpr ⟨?_, ?_⟩
  · have e : firstNo (p' :: B) none = firstNo (p :: B) none := by simp [firstNo, hno]
    rw [e]
    refine row_frame K A _ _ h1 ?_
    intro q hq
    refine hfr q (List.mem_append_left _ hq) ?_
    exact hnd'.2.2 _ (List.mem_map.mpr ⟨q, hq, rfl⟩) _ (List.mem_cons_self ..)
  · refine ⟨hX _ ?_, ?_⟩
    · rw [hno]; exact bytesOf_write hp.2 hl
    · rw [hno]
      refine row_frame K B _ _ h2.2 ?_
      intro q hq
      refine hfr q (List.mem_append_right _ (List.mem_cons_of_mem _ hq)) ?_
      intro hh
      exact (List.nodup_cons.mp hnd'.2.1).1 (List.mem_map.mpr ⟨q, hq, hh⟩)

/-- Keys grow along every row. -/
theorem ends_pairwise {c : Conf} {f : Bytes} (bs : List (List (Spec.Pg Spec.Ref))) (leaves : List (Spec.Pg Entry)) (h : Spec.Rows c f bs leaves)
    (ho : Spec.Ordered c leaves) :
    (Spec.ends bs leaves).Pairwise (fun s t => ∀ x y, s.1 = some x → t.1 = some y → Spec.Before x.key y.key) := by
  induction bs with
  | nil =>
    rw [Spec.ends, List.pairwise_map]
    refine ho.rows.imp ?_
    intro p q hpq x y hx hy
    exact hpq x (List.mem_of_getLast? hx) y (List.mem_of_getLast? hy)
  | cons row bs ih =>
    obtain ⟨h1, h2, h3⟩ := h
    have := ih h3
    rw [← h2, List.pairwise_map, List.pairwise_flatMap] at this
    rw [Spec.ends, List.pairwise_map]
    refine this.2.imp ?_
    intro p q hpq x y hx hy
    rw [Option.map_eq_some_iff] at hx hy
    obtain ⟨r, hr, rfl⟩ := hx
    obtain ⟨s, hs, rfl⟩ := hy
    exact hpq r (List.mem_of_getLast? hr) s (List.mem_of_getLast? hs) r.1 s.1 rfl rfl

/-- The first entry that is not before the key. -/
theorem split_first {key : Bytes} (E : List Spec.Ref) (l : Spec.Ref) (hl : E.getLast? = some l) (h : ¬ Spec.Before l.1.key key) :
    ∃ E1 x E2, E = E1 ++ x :: E2 ∧ (∀ r ∈ E1, Spec.Before r.1.key key) ∧ ¬ Spec.Before x.1.key key := by
  induction E with
  | nil => cases hl
  | cons r E ih =>
    by_cases hr : Spec.Before r.1.key key
    · cases E with
      | nil => cases hl; exact absurd hr h
      | cons s E =>
        rw [List.getLast?_cons_cons] at hl
        obtain ⟨E1, x, E2, g1, g2, g3⟩ := ih hl
        refine ⟨r :: E1, x, E2, by rw [g1, List.cons_append], ?_, g3⟩
        intro q hq
        rcases List.mem_cons.mp hq with rfl | hq
        · exact hr
        · exact g2 q hq
    · exact ⟨[], r, E, rfl, fun _ hq => absurd hq List.not_mem_nil, hr⟩

/-- What is left of an entry of the row above. -/
def turn (g : Gone) (l : Spec.Ref) : List Spec.Ref :=
  match g with
  | .same => [l]
  | .emptied => []
  | .newLast e => [(e, l.2)]

/-- What a leaf reports of its last entry. -/
def told : Option Entry → Gone
  | none => .same
  | some e => .newLast e

theorem sorted_last {primary : Bool} {es : List Entry} (h : Spec.Sorted primary es) {l x : Entry} (hl : es.getLast? = some l) (hx : x ∈ es) :
    Spec.Before x.key l.key ∨ x.key = l.key := by
  induction es generalizing x with
  | nil => cases hx
  | cons a es ih =>
    cases es with
    | nil =>
      rw [List.mem_singleton] at hx
      rw [List.getLast?_singleton] at hl
      cases hl
      exact .inr (by rw [hx])
    | cons b es =>
      rw [List.getLast?_cons_cons] at hl
      rcases List.mem_cons.mp hx with rfl | hx
      · have hb := ih h.2 hl (List.mem_cons_self ..)
        rcases h.1 with h1 | ⟨_, h1⟩
        · rcases hb with hb | hb
          · exact .inl (before_trans h1 hb)
          · exact .inl (hb ▸ h1)
        · rw [h1]; exact hb
      · exact ih h.2 hl hx

/-- A row seen from above is a list of references. -/
theorem ends_split {α : Type} {row : List (Spec.Pg α)} {last : Spec.Pg α → Option Entry} {RA RB : List Spec.Ref} {l : Entry} {no : Nat}
    (h : row.map (fun p => (last p, p.no)) = (RA ++ (l, no) :: RB).map up) :
    ∃ A p B, row = A ++ p :: B ∧ A.map (fun p => (last p, p.no)) = RA.map up ∧ last p = some l ∧ p.no = no ∧ B.map (fun p => (last p, p.no)) = RB.map up := by
  rw [List.map_append, List.map_cons] at h
  obtain ⟨A, C, h1, h2, h3⟩ := List.map_eq_append_iff.mp h
  obtain ⟨p, B, h4, h5, h6⟩ := List.map_eq_cons_iff.mp h3
  refine ⟨A, p, B, by rw [h1, h4], h2, ?_, ?_, h6⟩
  · exact congrArg Prod.fst h5
  · exact congrArg Prod.snd h5

/-- What a removal below page `no`, whose last entry is `l`, does. -/
structure Removed (c : Conf) (num : Nat) (key : Bytes) (f : Bytes) (bs : List (List (Spec.Pg Spec.Ref))) (leaves : List (Spec.Pg Entry)) (RA : List Spec.Ref) (l : Entry) (no : Nat)
    (RB : List Spec.Ref) (f' : Bytes) (g : Gone) (bs' : List (List (Spec.Pg Spec.Ref))) (leaves' : List (Spec.Pg Entry)) : Prop where
  rows : Spec.Rows c f' bs' leaves'
  ordered : Spec.Ordered c leaves'
  contents : Spec.contents leaves' = (Spec.contents leaves).erase ⟨num, key⟩
  numbers : (Spec.numbers bs' leaves').Sublist (Spec.numbers bs leaves)
  elsewhere : Spec.Elsewhere c (Spec.numbers bs leaves) f f'
  ends : Spec.ends bs' leaves' = (RA ++ turn g (l, no) ++ RB).map up
  eq : key ≠ l.key → g = .same
  last : ∀ e, g = .newLast e → e.key.length = c.P.len ∧ e.num < 2 ^ 32
  some : (∀ p ∈ leaves, (⟨num, key⟩ : Entry) ∈ p.ents → p.ents.erase ⟨num, key⟩ ≠ []) → g ≠ .emptied
  depth : bs'.length = bs.length
  free : ∀ ns, Spec.Free c f ns → (∀ n ∈ ns, n ∉ Spec.numbers bs leaves) →
    ∃ ms, Spec.Free c f' (ms ++ ns) ∧ (Spec.numbers bs' leaves' ++ ms).Perm (Spec.numbers bs leaves)

theorem lastNo_mem {c : Conf} {α : Type} {f : Bytes} {A : List (Spec.Pg α)} (h : ∀ q ∈ A, 0 < q.no ∧ (q.no + 1) * c.P.pagesize ≤ f.length) :
    ∀ m, lastNo none A = some m → 0 < m ∧ (m + 1) * c.P.pagesize ≤ f.length := by
  intro m hm
  unfold lastNo at hm
  rw [Option.or_none, Option.map_eq_some_iff] at hm
  obtain ⟨q, hq, rfl⟩ := hm
  exact h q (List.mem_of_getLast? hq)

theorem firstNo_mem {c : Conf} {α : Type} {f : Bytes} {B : List (Spec.Pg α)} (h : ∀ q ∈ B, 0 < q.no ∧ (q.no + 1) * c.P.pagesize ≤ f.length) :
    ∀ m, firstNo B none = some m → 0 < m ∧ (m + 1) * c.P.pagesize ≤ f.length := by
  intro m hm
  unfold firstNo at hm
  rw [Option.or_none, Option.map_eq_some_iff] at hm
  obtain ⟨q, hq, rfl⟩ := hm
  exact h q (List.mem_of_head? hq)

theorem no_small {c : Conf} (hs : Spec.Sizes c) {f : Bytes} (hf : f.length < 2 ^ 32) {n : Nat} (hn : (n + 1) * c.P.pagesize ≤ f.length) : n < 2 ^ 32 := by
  have h1 := hs.page.1
  rw [Nat.add_mul, Nat.one_mul] at hn
  have h2 : n * 1 ≤ n * c.P.pagesize := Nat.mul_le_mul_left _ (by omega)
  omega

theorem removed_leaf {c : Conf} (hs : Spec.Sizes c) {f : Bytes} {leaves : List (Spec.Pg Entry)} {num : Nat} {key : Bytes} (fuel : Nat)
    (hrows : Spec.Rows c f [] leaves) (hpl : Spec.Placed c f (Spec.numbers [] leaves)) (ho : Spec.Ordered c leaves)
    {RA RB : List Spec.Ref} {l : Entry} {no : Nat} (hends : Spec.ends [] leaves = (RA ++ (l, no) :: RB).map up)
    (hb : ∀ r ∈ RA, Spec.Before r.1.key key) (hl : ¬ Spec.Before l.key key)
    (hroom : ∀ p ∈ leaves, (⟨num, key⟩ : Entry) ∈ p.ents → p.ents.erase ⟨num, key⟩ ≠ [] → Spec.Room c (p.ents.erase ⟨num, key⟩)) :
    ∃ f' g bs' leaves', deleteAt c num key (fuel + 1) f (no * c.P.pagesize) = .ok (some (f', g)) ∧
      Removed c num key f [] leaves RA l no RB f' g bs' leaves' := by
  obtain ⟨A, p, B, rfl, hA, hp, rfl, hB⟩ := ends_split hends
  have hps := hs.page
  have hin : ∀ q ∈ A ++ p :: B, 0 < q.no ∧ (q.no + 1) * c.P.pagesize ≤ f.length := by
    intro q hq
    exact hpl.inside _ (List.mem_append_right _ (List.mem_map.mpr ⟨q, hq, rfl⟩))
  have hnd : ((A ++ p :: B).map (·.no)).Nodup := hpl.nodup
  have hmem : p ∈ A ++ p :: B := List.mem_append_right _ (List.mem_cons_self ..)
  have hpin := hin p hmem
  have hplen := bytesOf_length hpin.2
  obtain ⟨hr1, hr2⟩ := (row_append A (p :: B) none none).mp hrows
  have hleaf : Spec.LeafAt c f p (lastNo none A) (firstNo B none) := hr2.1
  obtain ⟨ho1, ho2, ho3⟩ := ho.entries p hmem
  have hpw := List.pairwise_append.mp ho.rows
  -- the entry is on no other leaf
  have hAn : ∀ q ∈ A, (⟨num, key⟩ : Entry) ∉ q.ents := by
    intro q hq hx
    have : (q.ents.getLast?, q.no) ∈ RA.map up := by rw [← hA]; exact List.mem_map.mpr ⟨q, hq, rfl⟩
    obtain ⟨r, hr, hru⟩ := List.mem_map.mp this
    have h1 : q.ents.getLast? = some r.1 := (congrArg Prod.fst hru).symm
    have hbr := hb r hr
    rcases sorted_last (ho.entries q (List.mem_append_left _ hq)).2.1 h1 hx with h2 | h2
    · exact before_irrefl _ (before_trans h2 hbr)
    · rw [← h2] at hbr; exact before_irrefl _ hbr
  have hBn : ∀ q ∈ B, (⟨num, key⟩ : Entry) ∉ q.ents := by
    intro q hq hx
    exact hl ((List.pairwise_cons.mp hpw.2.1).1 q hq l (List.mem_of_getLast? hp) _ hx)
  have hcon : (Spec.contents (A ++ p :: B)).erase ⟨num, key⟩ = Spec.contents A ++ (p.ents.erase ⟨num, key⟩ ++ Spec.contents B) := by
    unfold Spec.contents
    rw [List.flatMap_append, List.flatMap_cons, List.erase_append_right _ (by
      intro hh
      obtain ⟨q, hq, hx⟩ := List.mem_flatMap.mp hh
      exact hAn q hq hx)]
    congr 1
    by_cases hin : (⟨num, key⟩ : Entry) ∈ p.ents
    · rw [List.erase_append_left _ hin]
    · rw [List.erase_append_right _ hin, List.erase_of_not_mem hin, List.erase_of_not_mem]
      intro hh
      obtain ⟨q, hq, hx⟩ := List.mem_flatMap.mp hh
      exact hBn q hq hx
  obtain ⟨fl, hfl1, hfl2⟩ := holds_flag hleaf.holds
  have hstart : deleteAt c num key (fuel + 1) f (p.no * c.P.pagesize) =
      (deleteLeaf c f (p.no * c.P.pagesize) (Spec.bytesOf c.P.pagesize f p.no) num key >>= fun r => .ok (some r)) := by
    rw [deleteAt, getData_page hpin.2, Outcome.ok_bind, hfl1, Outcome.ok_bind, if_pos hfl2]
  rcases leafDelete_cases hs hleaf.holds hplen ho1 ho2 hleaf.prev hleaf.next num key (hroom p hmem) with ⟨h1, h2⟩ | ⟨h1, h2, h3⟩ | ⟨h1, h2, page', last, h3, h4, h5, h6, h7, h8⟩
  · -- not there
    refine ⟨f, .same, [], A ++ p :: B, ?_, ?_⟩
    · rw [hstart, deleteLeaf, h2, Outcome.ok_bind, Outcome.ok_bind]
    · refine ⟨hrows, ho, ?_, List.Sublist.refl _, elsewhere_refl _ _ _, ?_, fun _ => rfl, fun _ h => (by cases h), fun _ => (by intro h; cases h), rfl,
        fun ns h _ => ⟨[], h, by rw [List.append_nil]⟩⟩
      · rw [hcon, List.erase_of_not_mem h1]; simp [Spec.contents]
      · rw [turn, hends]; simp
  · -- the last one of the page
    have hsing : p.ents = [⟨num, key⟩] := by
      have hlen := List.length_erase_of_mem h1
      rw [h2, List.length_nil] at hlen
      have : p.ents.length = 1 := by
        have := List.length_pos_iff.mpr ho3
        omega
      obtain ⟨y, hy⟩ := List.length_eq_one_iff.mp this
      rw [hy, List.mem_singleton] at h1
      rw [hy, h1]
    have hlk : l.key = key := by rw [hsing] at hp; cases hp; rfl
    obtain ⟨r, hr, hr2, hr3, hr4⟩ := free_row (leaf_kind c) hs hpl.small A B p hrows hin hnd _ hleaf.prev hleaf.next
    refine ⟨setData r.1 (p.no * c.P.pagesize) r.2, .emptied, [], A ++ B, ?_, ?_⟩
    · rw [hstart, deleteLeaf, h3, Outcome.ok_bind]
      dsimp only
      rw [hr, Outcome.ok_bind, Outcome.ok_bind]
    · refine ⟨hr3, ⟨?_, ?_⟩, ?_, ?_, hr4, ?_, fun h => absurd hlk.symm h, fun _ h => (by cases h), fun h => absurd h2 (h p hmem h1), rfl, ?_⟩
      · intro q hq
        exact ho.entries q (by rcases List.mem_append.mp hq with h | h <;> simp [h])
      · refine List.pairwise_append.mpr ⟨hpw.1, (List.pairwise_cons.mp hpw.2.1).2, ?_⟩
        intro q hq s hs
        exact hpw.2.2 q hq s (List.mem_cons_of_mem _ hs)
      · rw [hcon, h2]; simp [Spec.contents]
      · unfold Spec.numbers
        refine List.Sublist.append (List.Sublist.refl _) (List.Sublist.map _ ?_)
        exact List.Sublist.append (List.Sublist.refl _) (List.sublist_cons_self _ _)
      · rw [turn, List.append_nil, Spec.ends, List.map_append, List.map_append, hA, hB]
      · intro ns hns hdis
        obtain ⟨w1, w2⟩ := free_head hs hpl.small hpin.1 hpin.2 _ _ (lastNo_mem (fun q hq => hin q (List.mem_append_left _ hq)))
          (firstNo_mem (fun q hq => hin q (List.mem_append_right _ (List.mem_cons_of_mem _ hq)))) hleaf.prev hleaf.next hr
        refine ⟨[p.no], free_push (by omega) hns hr4 w1 w2 hdis hpin.1 hpin.2 (no_small hs hpl.small hpin.2), ?_⟩
        unfold Spec.numbers
        rw [List.map_append, List.map_append, List.map_cons]
        simp only [List.map_nil, List.flatten_nil, List.nil_append, List.append_assoc]
        exact List.Perm.append_left _ List.perm_append_comm
  · -- others are left
    obtain ⟨hw1, hw2⟩ := row_write (leaf_kind c) hs A B p ⟨p.no, p.ents.erase ⟨num, key⟩⟩ hrows hin hnd page' h4 rfl
      (fun f2 hf2 => ⟨by rw [hf2]; exact h5, by rw [hf2]; exact h6, by rw [hf2]; exact h7⟩)
    refine ⟨setData f (p.no * c.P.pagesize) page', told last, [], A ++ ⟨p.no, p.ents.erase ⟨num, key⟩⟩ :: B, ?_, ?_⟩
    · have : deleteLeaf c f (p.no * c.P.pagesize) (Spec.bytesOf c.P.pagesize f p.no) num key =
          .ok (setData f (p.no * c.P.pagesize) page', told last) := by
        unfold deleteLeaf
        rw [h3]
        cases last <;> rfl
      rw [hstart, this]
      rfl
    · have hsub : ∀ x, x ∈ p.ents.erase ⟨num, key⟩ → x ∈ p.ents := fun x hx => List.mem_of_mem_erase hx
      have hw3 : Spec.Elsewhere c (Spec.numbers [] (A ++ p :: B)) f (setData f (p.no * c.P.pagesize) page') := by
        refine elsewhere_mono hw2 ?_
        intro n hn
        rw [List.mem_singleton] at hn
        rw [hn]
        exact List.mem_append_right _ (List.mem_map.mpr ⟨p, hmem, rfl⟩)
      refine ⟨hw1, ⟨?_, ?_⟩, ?_, ?_, hw3, ?_, ?_, ?_, ?_, rfl, ?_⟩
      · intro q hq
        rcases List.mem_append.mp hq with hq | hq
        · exact ho.entries q (List.mem_append_left _ hq)
        · rcases List.mem_cons.mp hq with rfl | hq
          · refine ⟨fun x hx => ho1 x (hsub x hx), ?_, h2⟩
            obtain ⟨i, g1, g2, g3⟩ := findEntry_some h1
            have := removed_sorted g3 ho2
            rwa [removed_erase g3] at this
          · exact ho.entries q (List.mem_append_right _ (List.mem_cons_of_mem _ hq))
      · refine List.pairwise_append.mpr ⟨hpw.1, List.pairwise_cons.mpr ⟨?_, (List.pairwise_cons.mp hpw.2.1).2⟩, ?_⟩
        · intro q hq x hx
          exact (List.pairwise_cons.mp hpw.2.1).1 q hq x (hsub x hx)
        · intro q hq s hs x hx y hy
          rcases List.mem_cons.mp hs with rfl | hs
          · exact hpw.2.2 q hq p (List.mem_cons_self ..) x hx y (hsub y hy)
          · exact hpw.2.2 q hq s (List.mem_cons_of_mem _ hs) x hx y hy
      · rw [hcon]; simp [Spec.contents]
      · unfold Spec.numbers
        rw [List.map_append, List.map_append, List.map_cons, List.map_cons]
      · rw [Spec.ends, List.map_append, List.map_cons, hA, hB]
        rcases h8 with ⟨rfl, h9⟩ | ⟨l', rfl, h9, h10⟩
        · dsimp only [turn, told]
          rw [h9, hp]; simp [up]
        · dsimp only [turn, told]
          rw [h9]; simp [up]
      · intro hne
        rcases h8 with ⟨rfl, h9⟩ | ⟨l', rfl, h9, h10⟩
        · rfl
        · rw [hp] at h10; cases h10; exact absurd rfl hne
      · intro e he
        rcases h8 with ⟨rfl, h9⟩ | ⟨l', rfl, h9, h10⟩
        · cases he
        · cases he
          exact ho1 _ (hsub _ (List.mem_of_getLast? h9))
      · intro _ hg
        rcases h8 with ⟨rfl, h9⟩ | ⟨l', rfl, h9, h10⟩ <;> cases hg
      · intro ns hns hdis
        refine ⟨[], free_keep (by omega) hns hw3 (write_take hs hpin.1 hpin.2 h4) hdis, ?_⟩
        unfold Spec.numbers
        rw [List.append_nil, List.map_append, List.map_append, List.map_cons, List.map_cons]

/-- The page above after the removal. -/
theorem refDeleted_parts {c : Conf} (flags a b : Nat) (E1 : List Spec.Ref) (x : Spec.Ref) (E2 : List Spec.Ref) (rest : Bytes) (h : Refs c (E1 ++ x :: E2)) (g : Gone)
    (hg : ∀ e, g = .newLast e → e.key.length = c.P.len ∧ e.num < 2 ^ 32) (hf : g = .emptied → c.fwd = true) :
    ∃ rest', refDeleted c (hd flags (E1 ++ x :: E2).length a b ++ ((E1 ++ x :: E2).flatMap (Spec.refBytes c) ++ rest)) (E1 ++ x :: E2).length E1.length g =
        .ok (hd flags (E1 ++ turn g x ++ E2).length a b ++ ((E1 ++ turn g x ++ E2).flatMap (Spec.refBytes c) ++ rest')) ∧
      (hd flags (E1 ++ turn g x ++ E2).length a b ++ ((E1 ++ turn g x ++ E2).flatMap (Spec.refBytes c) ++ rest')).length =
        (hd flags (E1 ++ x :: E2).length a b ++ ((E1 ++ x :: E2).flatMap (Spec.refBytes c) ++ rest)).length ∧
      Refs c (E1 ++ turn g x ++ E2) ∧ (if g = .emptied then (E1 ++ x :: E2).length - 1 else (E1 ++ x :: E2).length) = (E1 ++ turn g x ++ E2).length := by
  obtain ⟨h1, h2⟩ := refs_append.mp h
  obtain ⟨h3, h4⟩ := refs_cons.mp h2
  cases g with
  | same =>
    refine ⟨rest, ?_, ?_, ?_, ?_⟩
    · simp [refDeleted, turn]
    · simp [turn]
    · simpa [turn] using h
    · simp [turn]
  | emptied =>
    have hr : Refs c (E1 ++ E2) := refs_append.mpr ⟨h1, h4⟩
    refine ⟨List.replicate c.step 0 ++ rest, ?_, ?_, ?_, ?_⟩
    · simp only [turn, List.append_nil]
      exact cutRef_parts flags a b E1 x E2 rest h (.inl (hf rfl))
    · simp only [turn, List.append_nil, List.length_append, hd_length, flat_length h, flat_length hr, List.length_replicate, List.length_cons, Nat.add_mul, Nat.one_mul]
      omega
    · simpa [turn] using hr
    · simp [turn]
  | newLast e =>
    have he := hg e rfl
    have hr : Refs c (E1 ++ (e, x.2) :: E2) := refs_append.mpr ⟨h1, refs_cons.mpr ⟨he, h4⟩⟩
    have hl : (E1 ++ (e, x.2) :: E2).length = (E1 ++ x :: E2).length := by simp
    have ht : E1 ++ turn (.newLast e) x ++ E2 = E1 ++ (e, x.2) :: E2 := by simp [turn]
    rw [ht]
    refine ⟨rest, ?_, ?_, hr, ?_⟩
    · rw [hl]
      exact setRef_parts flags _ a b E1 x E2 rest h e he.1
    · simp only [List.length_append (bs := rest), List.length_append (as := hd _ _ _ _), hd_length, flat_length h, flat_length hr, hl]
    · rw [if_neg (by intro h; cases h), hl]

/-- The turn of a branch page after the removal below it. -/
theorem deleteUp_parts {c : Conf} (f : Bytes) (block flags a b : Nat) (key : Bytes) (E1 : List Spec.Ref) (x : Spec.Ref) (E2 : List Spec.Ref) (rest : Bytes) (h : Refs c (E1 ++ x :: E2)) (g : Gone)
    (hg : ∀ e, g = .newLast e → e.key.length = c.P.len ∧ e.num < 2 ^ 32) (hf : g = .emptied → c.fwd = true) (heq : key ≠ x.1.key → g = .same) :
    ∃ rest', (hd flags (E1 ++ turn g x ++ E2).length a b ++ ((E1 ++ turn g x ++ E2).flatMap (Spec.refBytes c) ++ rest')).length =
        (hd flags (E1 ++ x :: E2).length a b ++ ((E1 ++ x :: E2).flatMap (Spec.refBytes c) ++ rest)).length ∧ Refs c (E1 ++ turn g x ++ E2) ∧
      ((E1 ++ turn g x ++ E2 = [] ∧ g = .emptied ∧ E2 = [] ∧
          deleteUp c f block (hd flags (E1 ++ x :: E2).length a b ++ ((E1 ++ x :: E2).flatMap (Spec.refBytes c) ++ rest)) (E1 ++ x :: E2).length E1.length (decide (key = x.1.key)) g =
            (freePage c f (hd flags 0 a b ++ rest') block >>= fun r => .ok (setData r.1 block r.2, .emptied))) ∨
       (g = .same ∧ deleteUp c f block (hd flags (E1 ++ x :: E2).length a b ++ ((E1 ++ x :: E2).flatMap (Spec.refBytes c) ++ rest)) (E1 ++ x :: E2).length E1.length (decide (key = x.1.key)) g =
          .ok (f, .same)) ∨
       (∃ g', deleteUp c f block (hd flags (E1 ++ x :: E2).length a b ++ ((E1 ++ x :: E2).flatMap (Spec.refBytes c) ++ rest)) (E1 ++ x :: E2).length E1.length (decide (key = x.1.key)) g =
          .ok (setData f block (hd flags (E1 ++ turn g x ++ E2).length a b ++ ((E1 ++ turn g x ++ E2).flatMap (Spec.refBytes c) ++ rest')), g') ∧
          ((g' = .same ∧ (E1 ++ turn g x ++ E2).getLast? = (E1 ++ x :: E2).getLast? ∧ E2 ≠ []) ∨
           (∃ y, g' = .newLast y.1 ∧ (E1 ++ turn g x ++ E2).getLast? = some y ∧ E2 = [] ∧ key = x.1.key)))) := by
  obtain ⟨rest', h1, h2, h3, h4⟩ := refDeleted_parts flags a b E1 x E2 rest h g hg hf
  refine ⟨rest', h2, h3, ?_⟩
  have hn : (E1 ++ x :: E2).length - 1 = E1.length + E2.length := by simp only [List.length_append, List.length_cons]; omega
  unfold deleteUp
  rw [h1, Outcome.ok_bind]
  dsimp only
  rw [h4, hn]
  by_cases hz : E1 ++ turn g x ++ E2 = []
  · left
    have hge : g = .emptied := by
      cases g with
      | emptied => rfl
      | same => simp [turn] at hz
      | newLast e => simp [turn] at hz
    have hE2 : E2 = [] := (List.append_eq_nil_iff.mp hz).2
    refine ⟨hz, hge, hE2, ?_⟩
    rw [hz, List.length_nil, if_pos rfl]
    simp
  · right
    rw [if_neg (by rw [List.length_eq_zero_iff]; exact hz)]
    by_cases hl : E1.length = E1.length + E2.length ∧ decide (key = x.1.key) = true
    · right
      rw [if_pos hl]
      have hE2 : E2 = [] := List.length_eq_zero_iff.mp (by omega)
      have hk : key = x.1.key := of_decide_eq_true hl.2
      obtain ⟨N, y, hy⟩ := (List.eq_nil_or_concat (E1 ++ turn g x ++ E2)).resolve_left hz
      rw [List.concat_eq_append] at hy
      have hr : Refs c (N ++ [y]) := by rw [← hy]; exact h3
      have := lastRef_parts flags (N ++ [y]).length a b N y rest' hr
      rw [← hy] at this
      rw [hy, List.length_append, List.length_singleton, ← List.length_singleton (a := y), ← List.length_append, ← hy]
      have hlen : (E1 ++ turn g x ++ E2).length = N.length + 1 := by rw [hy, List.length_append, List.length_singleton]
      rw [← hlen] at this
      rw [this, Outcome.ok_bind]
      refine ⟨.newLast y.1, rfl, .inr ⟨y, rfl, ?_, hE2, hk⟩⟩
      rw [hy, List.getLast?_concat]
    · rw [if_neg hl]
      by_cases hg' : g = .same
      · left
        rw [if_pos hg']
        exact ⟨hg', rfl⟩
      · right
        rw [if_neg hg']
        refine ⟨.same, rfl, .inl ⟨rfl, ?_⟩⟩
        have hk : key = x.1.key := by
          by_contra hne
          exact hg' (heq hne)
        have hE2 : E2 ≠ [] := by
          rintro rfl
          exact hl ⟨by simp, by simp [hk]⟩
        refine ⟨?_, hE2⟩
        cases E2 with
        | nil => exact absurd rfl hE2
        | cons s E2 =>
          rw [List.getLast?_append, List.getLast?_append, List.getLast?_append, List.getLast?_cons_cons]
          cases h : (s :: E2).getLast? with
          | none => rw [List.getLast?_eq_none_iff] at h; cases h
          | some z => rfl

theorem rd_hd (flags n a b : Nat) (z : Bytes) (hf : flags < 65536) (hn : n < 65536) (ha : a < 2 ^ 32) (hb : b < 2 ^ 32) :
    rd (hd flags n a b ++ z) 0 1 = .ok (flags % 256) ∧ rd (hd flags n a b ++ z) 0 2 = .ok flags ∧ rd (hd flags n a b ++ z) 2 2 = .ok n ∧
      Spec.At (hd flags n a b ++ z) 4 4 a ∧ Spec.At (hd flags n a b ++ z) 8 4 b := by
  refine ⟨?_, ?_, ?_, ?_, ?_⟩
  · refine rd_at (p := hd flags n a b ++ z) ⟨[], UInt8.ofNat (flags / 256) :: (le 2 n ++ (le 4 a ++ le 4 b) ++ z), ?_, rfl, Nat.mod_lt _ (by decide)⟩
    unfold hd
    simp only [le, List.cons_append, List.nil_append]
    congr 1
    rw [UInt8.ofNat_mod_size]
  · refine rd_at (p := hd flags n a b ++ z) ⟨[], (le 2 n ++ (le 4 a ++ le 4 b)) ++ z, ?_, rfl, by omega⟩
    unfold hd
    rw [List.nil_append, List.append_assoc]
  · refine rd_at (p := hd flags n a b ++ z) ⟨le 2 flags, (le 4 a ++ le 4 b) ++ z, ?_, le_length _ _, by omega⟩
    unfold hd
    simp only [List.append_assoc]
  · refine ⟨le 2 flags ++ le 2 n, le 4 b ++ z, ?_, by rw [List.length_append, le_length, le_length], ha⟩
    unfold hd
    simp only [List.append_assoc]
  · refine ⟨le 2 flags ++ le 2 n ++ le 4 a, z, ?_, by simp only [List.length_append, le_length], hb⟩
    unfold hd
    simp only [List.append_assoc]

theorem flag_low {flags : Nat} (h : flags.testBit 1 = false) : ¬ (flags % 256 &&& 2 ≠ 0) ∧ ¬ (flags &&& 2 ≠ 0) := by
  constructor
  · intro hh
    have := (flag_bit _).mp hh
    rw [show (256 : Nat) = 2 ^ 8 from rfl, Nat.testBit_mod_two_pow, h] at this
    simp at this
  · intro hh
    have := (flag_bit _).mp hh
    rw [h] at this
    cases this

theorem numbers_cons (row : List (Spec.Pg Spec.Ref)) (bs : List (List (Spec.Pg Spec.Ref))) (leaves : List (Spec.Pg Entry)) :
    Spec.numbers (row :: bs) leaves = row.map (·.no) ++ Spec.numbers bs leaves := by
  unfold Spec.numbers
  rw [List.map_cons, List.flatten_cons, List.append_assoc]

/-- Removing an entry below a page of the top row. -/
theorem del_sub {c : Conf} (hs : Spec.Sizes c) {num : Nat} {key : Bytes} (hk : key.length = c.P.len) (bs : List (List (Spec.Pg Spec.Ref))) :
    ∀ (fuel : Nat) (f : Bytes) (leaves : List (Spec.Pg Entry)) (RA RB : List Spec.Ref) (l : Entry) (no : Nat), bs.length < fuel →
    Spec.Rows c f bs leaves → Spec.Placed c f (Spec.numbers bs leaves) → Spec.Ordered c leaves →
    Spec.ends bs leaves = (RA ++ (l, no) :: RB).map up →
    (∀ r ∈ RA, Spec.Before r.1.key key) → ¬ Spec.Before l.key key →
    (∀ p ∈ leaves, (⟨num, key⟩ : Entry) ∈ p.ents → p.ents.erase ⟨num, key⟩ ≠ [] → Spec.Room c (p.ents.erase ⟨num, key⟩)) →
    (c.fwd = true ∨ ∀ p ∈ leaves, (⟨num, key⟩ : Entry) ∈ p.ents → p.ents.erase ⟨num, key⟩ ≠ []) →
    ∃ f' g bs' leaves', deleteAt c num key fuel f (no * c.P.pagesize) = .ok (some (f', g)) ∧
      Removed c num key f bs leaves RA l no RB f' g bs' leaves' := by
  induction bs with
  | nil =>
    intro fuel f leaves RA RB l no hfuel hrows hpl ho hends hb hl hroom _
    obtain ⟨fuel, rfl⟩ : ∃ k, fuel = k + 1 := ⟨fuel - 1, by simp at hfuel; omega⟩
    exact removed_leaf hs fuel hrows hpl ho hends hb hl hroom
  | cons row bs ih =>
    intro fuel f leaves RA RB l no hfuel hrows hpl ho hends hb hl hroom hfwd
    obtain ⟨fuel, rfl⟩ : ∃ k, fuel = k + 1 := ⟨fuel - 1, by simp at hfuel; omega⟩
    have hpwAll := ends_pairwise bs leaves hrows.2.2 ho
    obtain ⟨A, p, B, rfl, hA, hp, rfl, hB⟩ := ends_split hends
    obtain ⟨hrow, hsub, hbelow⟩ := hrows
    rw [numbers_cons] at hpl
    have hnds := List.nodup_append.mp hpl.nodup
    have hps := hs.page
    have hin : ∀ q ∈ A ++ p :: B, 0 < q.no ∧ (q.no + 1) * c.P.pagesize ≤ f.length := by
      intro q hq
      exact hpl.inside _ (List.mem_append_left _ (List.mem_map.mpr ⟨q, hq, rfl⟩))
    have hnd : ((A ++ p :: B).map (·.no)).Nodup := hnds.1
    have hmem : p ∈ A ++ p :: B := List.mem_append_right _ (List.mem_cons_self ..)
    have hpin := hin p hmem
    have hplen := bytesOf_length hpin.2
    obtain ⟨l0, hl0, rfl⟩ := Option.map_eq_some_iff.mp hp
    obtain ⟨E1, x, E2, hE, hE1, hx⟩ := split_first (key := key) p.ents l0 hl0 hl
    -- the page
    obtain ⟨hr1, hr2⟩ := (row_append A (p :: B) none none).mp hrow
    obtain ⟨flags, rest, hb1, hb2, hb3, hb4, hb5, hb6, hb7⟩ := branchAt_iff.mp hr2.1
    change Spec.linkTo c (firstNo B none) < 2 ^ 32 at hb5
    change Spec.bytesOf c.P.pagesize f p.no = hd flags p.ents.length (Spec.linkTo c (lastNo none A)) (Spec.linkTo c (firstNo B none)) ++ _ at hb7
    rw [hE] at hb3 hb6 hb7
    -- the row below
    rw [List.flatMap_append, List.flatMap_cons, hE] at hsub
    have hends' : Spec.ends bs leaves = ((A.flatMap (·.ents) ++ E1) ++ x :: (E2 ++ B.flatMap (·.ents))).map up := by
      rw [← hsub]
      simp only [List.append_assoc, List.cons_append]
      rfl
    rw [hends', List.pairwise_map] at hpwAll
    have hpw2 := List.pairwise_append.mp hpwAll
    have hRA : ∀ r ∈ A.flatMap (·.ents) ++ E1, Spec.Before r.1.key key := by
      intro r hr
      rcases List.mem_append.mp hr with hr | hr
      · obtain ⟨q, hq, hrq⟩ := List.mem_flatMap.mp hr
        have : ((q.ents.getLast?).map (·.1), q.no) ∈ RA.map up := by rw [← hA]; exact List.mem_map.mpr ⟨q, hq, rfl⟩
        obtain ⟨s, hs1, hs2⟩ := List.mem_map.mp this
        have h1 : (q.ents.getLast?).map (·.1) = some s.1 := (congrArg Prod.fst hs2).symm
        obtain ⟨t, ht1, ht2⟩ := Option.map_eq_some_iff.mp h1
        have hbs := hb s hs1
        rw [← ht2] at hbs
        have hpwA : q.ents.Pairwise (fun s t => Spec.Before s.1.key t.1.key) := by
          have := (List.pairwise_flatMap.mp (List.pairwise_append.mp hpw2.1).1).1 q hq
          exact this.imp (fun h => h _ _ rfl rfl)
        obtain ⟨N, z, hz⟩ := (List.eq_nil_or_concat q.ents).resolve_left (by intro hn; rw [hn] at hrq; cases hrq)
        rw [List.concat_eq_append] at hz
        rw [hz, List.getLast?_concat] at ht1
        cases ht1
        rw [hz] at hrq hpwA
        rcases List.mem_append.mp hrq with hrq | hrq
        · exact before_trans ((List.pairwise_append.mp hpwA).2.2 r hrq t (List.mem_singleton.mpr rfl)) hbs
        · rw [List.mem_singleton.mp hrq]; exact hbs
      · exact hE1 r hr
    have hplb : Spec.Placed c f (Spec.numbers bs leaves) :=
      ⟨hnds.2.1, fun n hn => hpl.inside n (List.mem_append_right _ hn), hpl.small⟩
    obtain ⟨f1, g, bs1, leaves1, hdel, R⟩ := ih fuel f leaves _ _ x.1 x.2 (by simp at hfuel; omega) hbelow hplb ho hends' hRA hx hroom hfwd
    -- the row is as before
    have hfr : ∀ q ∈ A ++ p :: B, Spec.bytesOf c.P.pagesize f1 q.no = Spec.bytesOf c.P.pagesize f q.no := by
      intro q hq
      refine elsewhere_page (by omega) R.elsewhere (hin q hq).1 ?_
      intro hh
      exact hnds.2.2 _ (List.mem_map.mpr ⟨q, hq, rfl⟩) _ hh rfl
    have hrow1 := row_frame (branch_kind c) (A ++ p :: B) none none hrow hfr
    have hlen1 := R.elsewhere.1
    have hin1 : ∀ q ∈ A ++ p :: B, 0 < q.no ∧ (q.no + 1) * c.P.pagesize ≤ f1.length := by rw [hlen1]; exact hin
    -- the way down
    obtain ⟨k1, _, k3, _, _⟩ := rd_hd flags (E1 ++ x :: E2).length (Spec.linkTo c (lastNo none A)) (Spec.linkTo c (firstNo B none)) ((E1 ++ x :: E2).flatMap (Spec.refBytes c) ++ rest) hb1 hb3 hb4 hb5
    have hxs : Spec.linkTo c (some x.2) < 2 ^ 32 := by
      refine link_lt hs hpl.small ?_
      intro m hm
      cases hm
      have : (x.2) ∈ Spec.numbers bs leaves := by
        have h1 : up x ∈ Spec.ends bs leaves := by rw [hends']; simp
        unfold Spec.numbers
        cases bs with
        | nil =>
          obtain ⟨q, hq, hq2⟩ := List.mem_map.mp h1
          exact List.mem_append_right _ (List.mem_map.mpr ⟨q, hq, congrArg Prod.snd hq2⟩)
        | cons r bs =>
          obtain ⟨q, hq, hq2⟩ := List.mem_map.mp h1
          rw [List.map_cons, List.flatten_cons]
          exact List.mem_append_left _ (List.mem_append_left _ (List.mem_map.mpr ⟨q, hq, congrArg Prod.snd hq2⟩))
      exact (hplb.inside _ this).2
    have hdown : deleteAt c num key (fuel + 1) f (p.no * c.P.pagesize) =
        (deleteUp c f1 (p.no * c.P.pagesize) (hd flags (E1 ++ x :: E2).length (Spec.linkTo c (lastNo none A)) (Spec.linkTo c (firstNo B none)) ++
          ((E1 ++ x :: E2).flatMap (Spec.refBytes c) ++ rest)) (E1 ++ x :: E2).length E1.length (decide (key = x.1.key)) g >>= fun r => .ok (some r)) := by
      rw [deleteAt, getData_page hpin.2, Outcome.ok_bind, hb7, k1, Outcome.ok_bind, if_neg (flag_low hb2).1, k3, Outcome.ok_bind,
        seek_some hk E1 x E2 _ _ rest 0 hb6 rfl (by rw [hd_length]; simp [Conf.slot]) hE1 hx, Outcome.ok_bind]
      dsimp only
      rw [Nat.zero_add, child_at flags _ _ _ E1 x E2 rest hb6, Outcome.ok_bind, ofLe_reverse_be 4 _ hxs, child_link, hdel, Outcome.ok_bind]
    have hne : g = .emptied → c.fwd = true := by
      intro hg
      rcases hfwd with h | h
      · exact h
      · exact absurd hg (R.some h)
    obtain ⟨rest', q1, q2, q3⟩ := deleteUp_parts f1 (p.no * c.P.pagesize) flags (Spec.linkTo c (lastNo none A)) (Spec.linkTo c (firstNo B none)) key E1 x E2 rest hb6 g R.last hne R.eq
    have hnew : ∀ f2 : Bytes, Spec.Elsewhere c ((A ++ p :: B).map (·.no)) f1 f2 → Spec.Rows c f2 bs1 leaves1 ∧
        Spec.Elsewhere c (Spec.numbers ((A ++ p :: B) :: bs) leaves) f f2 := by
      intro f2 he
      refine ⟨rows_frame bs1 leaves1 R.rows ?_, ?_⟩
      · intro n hn
        have hn' := R.numbers.subset hn
        refine elsewhere_page (by omega) he (hplb.inside n hn').1 ?_
        intro hh
        exact hnds.2.2 _ hh _ hn' rfl
      · rw [numbers_cons]
        exact elsewhere_trans (elsewhere_mono R.elsewhere (fun n hn => List.mem_append_right _ hn)) (elsewhere_mono he (fun n hn => List.mem_append_left _ hn))
    have hms : ∀ ms, (Spec.numbers bs1 leaves1 ++ ms).Perm (Spec.numbers bs leaves) →
        ∀ ns : List Nat, (∀ n ∈ ns, n ∉ List.map (·.no) (A ++ p :: B) ++ Spec.numbers bs leaves) → ∀ n ∈ ms ++ ns, n ∉ List.map (·.no) (A ++ p :: B) := by
      intro ms m2 ns hdis n hn hh
      rcases List.mem_append.mp hn with hn | hn
      · exact hnds.2.2 _ hh _ (m2.subset (List.mem_append_right _ hn)) rfl
      · exact hdis n hn (List.mem_append_left _ hh)
    have hRends := R.ends
    have hxx : (x.1, x.2) = x := rfl
    rw [hxx] at hRends
    rcases q3 with ⟨z1, z2, z3, z4⟩ | ⟨z1, z2⟩ | ⟨g', z1, z2⟩
    · -- the page has no entries left
      have hE1n : E1 = [] := by
        have := (List.append_eq_nil_iff.mp z1).1
        exact (List.append_eq_nil_iff.mp this).1
      subst z3 hE1n
      have hl0x : l0 = x := by rw [hE] at hl0; cases hl0; rfl
      obtain ⟨_, _, _, w4, w5⟩ := rd_hd flags 0 (Spec.linkTo c (lastNo none A)) (Spec.linkTo c (firstNo B none)) rest' hb1 (by omega) hb4 hb5
      obtain ⟨r, v1, v2, v3, v4⟩ := free_row (branch_kind c) hs (by rw [hlen1]; exact hpl.small) A B p hrow1 hin1 hnd _ w4 w5
      obtain ⟨u1, u2⟩ := hnew _ v4
      refine ⟨setData r.1 (p.no * c.P.pagesize) r.2, .emptied, (A ++ B) :: bs1, leaves1, ?_, ?_⟩
      · rw [hdown, z4, v1, Outcome.ok_bind, Outcome.ok_bind]
      · refine ⟨⟨v3, ?_, u1⟩, R.ordered, R.contents, ?_, u2, ?_, ?_, fun _ h => (by cases h), fun h => absurd z2 (R.some h), by rw [List.length_cons, List.length_cons, R.depth], ?_⟩
        · rw [hRends, z2]; simp [turn]; rfl
        · rw [numbers_cons, numbers_cons]
          refine List.Sublist.append (List.Sublist.map _ ?_) R.numbers
          exact List.Sublist.append (List.Sublist.refl _) (List.sublist_cons_self _ _)
        · rw [turn, List.append_nil, Spec.ends, List.map_append, List.map_append, hA, hB]
        · intro hne
          rw [hl0x] at hne
          have := R.eq hne
          rw [z2] at this
          cases this
        · intro ns hns hdis
          rw [numbers_cons] at hdis
          obtain ⟨ms, m1, m2⟩ := R.free ns hns (fun n hn hh => hdis n hn (List.mem_append_right _ hh))
          obtain ⟨w6, w7⟩ := free_head hs (by rw [hlen1]; exact hpl.small) hpin.1 (by rw [hlen1]; exact hpin.2) _ _ (lastNo_mem (fun q hq => hin1 q (List.mem_append_left _ hq)))
            (firstNo_mem (fun q hq => hin1 q (List.mem_append_right _ (List.mem_cons_of_mem _ hq)))) w4 w5 v1
          refine ⟨p.no :: ms, free_push (by omega) m1 v4 w6 w7 (hms ms m2 ns hdis) hpin.1 (by rw [hlen1]; exact hpin.2) (no_small hs hpl.small hpin.2), ?_⟩
          rw [numbers_cons, numbers_cons, List.map_append, List.map_append, List.map_cons]
          have e1 : (List.map (fun x => x.no) A ++ p.no :: List.map (fun x => x.no) B).Perm (p.no :: (List.map (fun x => x.no) A ++ List.map (fun x => x.no) B)) := List.perm_middle
          refine List.Perm.trans ?_ (List.Perm.append e1.symm m2)
          refine List.Perm.trans List.perm_middle ?_
          rw [List.cons_append, ← List.append_assoc]
    · -- nothing to do
      refine ⟨f1, .same, (A ++ p :: B) :: bs1, leaves1, ?_, ?_⟩
      · rw [hdown, z2, Outcome.ok_bind]
      · refine ⟨⟨hrow1, ?_, R.rows⟩, R.ordered, R.contents, ?_, ?_, ?_, fun _ => rfl, fun _ h => (by cases h), fun _ h => (by cases h), by rw [List.length_cons, List.length_cons, R.depth], ?_⟩
        · rw [hRends, z1, List.flatMap_append, List.flatMap_cons, hE]
          simp only [turn, List.append_assoc, List.cons_append, List.nil_append]
          rfl
        · rw [numbers_cons, numbers_cons]
          exact List.Sublist.append (List.Sublist.refl _) R.numbers
        · rw [numbers_cons]
          exact elsewhere_mono R.elsewhere (fun n hn => List.mem_append_right _ hn)
        · rw [turn, Spec.ends, List.map_append, List.map_cons, hA, hB, hp]
          simp [up]
        · intro ns hns hdis
          rw [numbers_cons] at hdis
          obtain ⟨ms, m1, m2⟩ := R.free ns hns (fun n hn hh => hdis n hn (List.mem_append_right _ hh))
          refine ⟨ms, m1, ?_⟩
          rw [numbers_cons, numbers_cons, List.append_assoc]
          exact List.Perm.append_left _ m2
    · -- the page is written
      have hbound : (E1 ++ turn g x ++ E2).length < 65536 := by
        have : (turn g x).length ≤ 1 := by cases g <;> simp [turn]
        simp only [List.length_append, List.length_cons] at hb3 ⊢
        omega
      rw [← hb7, hplen] at q1
      obtain ⟨v1, v2⟩ := row_write (branch_kind c) hs A B p ⟨p.no, E1 ++ turn g x ++ E2⟩ hrow1 hin1 hnd _ q1 rfl
        (fun f2 hf2 => branchAt_iff.mpr ⟨flags, rest', hb1, hb2, hbound, hb4, hb5, q2, hf2⟩)
      obtain ⟨u1, u2⟩ := hnew _ (elsewhere_mono v2 (fun n hn => List.mem_map.mpr ⟨p, hmem, (List.mem_singleton.mp hn).symm⟩))
      refine ⟨_, g', (A ++ ⟨p.no, E1 ++ turn g x ++ E2⟩ :: B) :: bs1, leaves1, by rw [hdown, z1, Outcome.ok_bind], ?_⟩
      refine ⟨⟨v1, ?_, u1⟩, R.ordered, R.contents, ?_, u2, ?_, ?_, ?_, ?_, by rw [List.length_cons, List.length_cons, R.depth], ?_⟩
      · rw [hRends, List.flatMap_append, List.flatMap_cons]
        simp only [List.append_assoc]
        rfl
      · rw [numbers_cons, numbers_cons, List.map_append, List.map_append, List.map_cons, List.map_cons]
        exact List.Sublist.append (List.Sublist.refl _) R.numbers
      · rw [Spec.ends, List.map_append, List.map_cons, hA, hB]
        dsimp only
        rcases z2 with ⟨rfl, y1, y2⟩ | ⟨y, rfl, y1, y2, y3⟩
        · rw [y1, ← hE, hl0]; simp [turn, up]
        · rw [y1]; simp [turn, up]
      · intro hne
        rcases z2 with ⟨rfl, y1, y2⟩ | ⟨y, rfl, y1, y2, y3⟩
        · rfl
        · rw [hE, y2, List.getLast?_append] at hl0
          cases hl0
          exact absurd y3 hne
      · intro e he
        rcases z2 with ⟨rfl, y1, y2⟩ | ⟨y, rfl, y1, y2, y3⟩
        · cases he
        · cases he
          exact q2 y (List.mem_of_getLast? y1)
      · intro _ he
        rcases z2 with ⟨rfl, y1, y2⟩ | ⟨y, rfl, y1, y2, y3⟩ <;> cases he
      · intro ns hns hdis
        rw [numbers_cons] at hdis
        obtain ⟨ms, m1, m2⟩ := R.free ns hns (fun n hn hh => hdis n hn (List.mem_append_right _ hh))
        refine ⟨ms, free_keep (by omega) m1 v2 (write_take hs hpin.1 (by rw [hlen1]; exact hpin.2) q1) ?_, ?_⟩
        · intro n hn hh
          exact hms ms m2 ns hdis n hn (List.mem_map.mpr ⟨p, hmem, (List.mem_singleton.mp hh).symm⟩)
        · rw [numbers_cons, numbers_cons, List.map_append, List.map_append, List.map_cons, List.map_cons, List.append_assoc]
          exact List.Perm.append_left _ m2

end Verif.Index
