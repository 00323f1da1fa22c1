import Verif.Index.TreeInsert

/-! # Property theorems: removing an entry from an index and adding one (C75, C76) -/

namespace Verif.Index
open Verif Blob

theorem ends_nil {c : Conf} {f : Bytes} (bs : List (List (Spec.Pg Spec.Ref))) (leaves : List (Spec.Pg Entry)) (h : Spec.Rows c f bs leaves)
    (he : Spec.ends bs leaves = []) : leaves = [] := by
  induction bs with
  | nil => exact List.map_eq_nil_iff.mp he
  | cons row bs ih =>
    have hr : row = [] := List.map_eq_nil_iff.mp he
    refine ih h.2.2 ?_
    rw [← h.2.1, hr]
    rfl

theorem tree_top {c : Conf} {f : Bytes} {root : Nat} {bs : List (List (Spec.Pg Spec.Ref))} {leaves : List (Spec.Pg Entry)} (ht : Spec.Tree c f root bs leaves)
    (hne : Spec.contents leaves ≠ []) : ∃ l, Spec.ends bs leaves = [up (l, root)] := by
  have htop := ht.top
  obtain ⟨⟨o, n⟩, he, hn⟩ : ∃ t, Spec.ends bs leaves = [t] ∧ t.2 = root := by
    obtain ⟨t, T, h1, h2, h3⟩ := List.map_eq_cons_iff.mp htop
    rw [List.map_eq_nil_iff] at h3
    exact ⟨t, by rw [h1, h3], h2⟩
  cases hn
  cases o with
  | some l => exact ⟨l, he⟩
  | none =>
    exfalso
    cases bs with
    | nil =>
      obtain ⟨p, P, h1, h2, h3⟩ := List.map_eq_cons_iff.mp he
      have := congrArg Prod.fst h2
      rw [List.getLast?_eq_none_iff] at this
      exact (ht.ordered.entries p (by rw [h1]; exact List.mem_cons_self ..)).2.2 this
    | cons row bs =>
      obtain ⟨p, P, h1, h2, h3⟩ := List.map_eq_cons_iff.mp he
      have h4 := congrArg Prod.fst h2
      rw [Option.map_eq_none_iff, List.getLast?_eq_none_iff] at h4
      rw [List.map_eq_nil_iff] at h3
      have := ends_nil bs leaves ht.rows.2.2 (by
        rw [← ht.rows.2.1, h1, h3, List.flatMap_cons, h4]; rfl)
      rw [this] at hne
      exact hne rfl

/-- The last key of every leaf bounds what is on it; the top one bounds everything. -/
theorem all_bounded {c : Conf} {f : Bytes} (bs : List (List (Spec.Pg Spec.Ref))) (leaves : List (Spec.Pg Entry)) (h : Spec.Rows c f bs leaves)
    (ho : Spec.Ordered c leaves) {key : Bytes} (hb : ∀ t ∈ Spec.ends bs leaves, ∀ l, t.1 = some l → Spec.Before l.key key) :
    ∀ x ∈ Spec.contents leaves, Spec.Before x.key key := by
  induction bs with
  | nil =>
    intro x hx
    obtain ⟨p, hp, hxp⟩ := List.mem_flatMap.mp hx
    cases hl : p.ents.getLast? with
    | none => rw [List.getLast?_eq_none_iff] at hl; rw [hl] at hxp; cases hxp
    | some l =>
      have hbl := hb (p.ents.getLast?, p.no) (List.mem_map.mpr ⟨p, hp, rfl⟩) l hl
      rcases sorted_last (ho.entries p hp).2.1 hl hxp with h1 | h1
      · exact before_trans h1 hbl
      · rw [h1]; exact hbl
  | cons row bs ih =>
    have hpw := ends_pairwise bs leaves h.2.2 ho
    refine ih h.2.2 ?_
    rw [← h.2.1] at hpw ⊢
    rw [List.pairwise_map] at hpw
    intro t ht l hl
    obtain ⟨r, hr, rfl⟩ := List.mem_map.mp ht
    cases hl
    obtain ⟨p, hp, hrp⟩ := List.mem_flatMap.mp hr
    obtain ⟨N, z, hz⟩ := (List.eq_nil_or_concat p.ents).resolve_left (by intro hn; rw [hn] at hrp; cases hrp)
    rw [List.concat_eq_append] at hz
    have hlast : p.ents.getLast? = some z := by rw [hz, List.getLast?_concat]
    have hbz := hb ((p.ents.getLast?).map (·.1), p.no) (List.mem_map.mpr ⟨p, hp, rfl⟩) z.1 (by rw [hlast]; rfl)
    have hpp := (List.pairwise_flatMap.mp hpw).1 p hp
    rw [hz] at hrp hpp
    rcases List.mem_append.mp hrp with hrp | hrp
    · exact before_trans ((List.pairwise_append.mp hpp).2.2 r hrp z (List.mem_singleton.mpr rfl) _ _ rfl rfl) hbz
    · rw [List.mem_singleton.mp hrp]; exact hbz

/-- C75, the part that holds. Removing an entry from an index whose keys do not go on from one
leaf to the next, and that keeps at least one entry, removes exactly that entry: the file is again
such an index, with the same root and with all other entries in their order, and nothing is changed
outside of the pages of the index, except the first four bytes of the file. The pages that the index
no longer has are put in front of the free ones. An entry that is not there is not removed. What is left on the leaf has to have room, which is the case of C61; and
when a leaf loses its only entry, overlapping copies have to move the bytes in order. Missing: keys
that go on from one leaf to the next, and the last entry. -/
theorem delete_from_index_partial (c : Conf) (f : Bytes) (root : Nat) (bs : List (List (Spec.Pg Spec.Ref))) (leaves : List (Spec.Pg Entry)) (num : Nat) (key : Bytes)
    (fuel : Nat) (ht : Spec.Tree c f root bs leaves) (hk : key.length = c.P.len) (hfuel : bs.length < fuel)
    (hne : (Spec.contents leaves).erase ⟨num, key⟩ ≠ [])
    (hroom : ∀ p ∈ leaves, (⟨num, key⟩ : Entry) ∈ p.ents → p.ents.erase ⟨num, key⟩ ≠ [] → Spec.Room c (p.ents.erase ⟨num, key⟩))
    (hfwd : c.fwd = true ∨ ∀ p ∈ leaves, (⟨num, key⟩ : Entry) ∈ p.ents → p.ents.erase ⟨num, key⟩ ≠ []) :
    ∃ f' bs' leaves', deleteEntry c fuel f (root * c.P.pagesize) num key = .ok (some f') ∧ Spec.Tree c f' root bs' leaves' ∧
      Spec.contents leaves' = (Spec.contents leaves).erase ⟨num, key⟩ ∧ (Spec.numbers bs' leaves').Sublist (Spec.numbers bs leaves) ∧
      Spec.Elsewhere c (Spec.numbers bs leaves) f f' ∧
      (∀ ns, Spec.Free c f ns → (∀ n ∈ ns, n ∉ Spec.numbers bs leaves) →
        ∃ ms, Spec.Free c f' (ms ++ ns) ∧ (Spec.numbers bs' leaves' ++ ms).Perm (Spec.numbers bs leaves)) := by
  obtain ⟨l, hl⟩ := tree_top ht (by intro h; rw [h] at hne; exact hne rfl)
  by_cases hb : Spec.Before l.key key
  · -- behind all entries
    have hall := all_bounded bs leaves ht.rows ht.ordered (key := key) (by
      intro t htm l' hl'
      rw [hl, List.mem_singleton] at htm
      rw [htm] at hl'
      cases hl'
      exact hb)
    have hnot : (⟨num, key⟩ : Entry) ∉ Spec.contents leaves := fun h => before_irrefl _ (hall _ h)
    refine ⟨f, bs, leaves, ?_, ht, by rw [List.erase_of_not_mem hnot], List.Sublist.refl _, elsewhere_refl _ _ _,
      fun ns h _ => ⟨[], h, by rw [List.append_nil]⟩⟩
    obtain ⟨fuel, rfl⟩ : ∃ k, fuel = k + 1 := ⟨fuel - 1, by omega⟩
    cases bs with
    | nil =>
      obtain ⟨p, P, h1, h2, h3⟩ := List.map_eq_cons_iff.mp hl
      rw [List.map_eq_nil_iff] at h3
      subst h3
      subst h1
      have hno : p.no = root := congrArg Prod.snd h2
      have hleaf : Spec.LeafAt c f p none none := ht.rows.1
      have hpin := ht.placed.inside p.no (by simp [Spec.numbers])
      obtain ⟨fl, hfl1, hfl2⟩ := holds_flag hleaf.holds
      have hps := ht.sizes.page
      have hab := leaf_delete_absent c.P _ p.ents num key ht.sizes.key.1 (by rw [bytesOf_length hpin.2]; omega)
        (holds_unpack hleaf.holds (by rw [bytesOf_length hpin.2]; omega)) (fun h => hnot (by simp [Spec.contents, h]))
      rw [← hno]
      unfold deleteEntry
      rw [deleteAt, getData_page hpin.2, Outcome.ok_bind, hfl1, Outcome.ok_bind, if_pos hfl2, deleteLeaf, hab]
      rfl
    | cons row bs =>
      obtain ⟨p, P, h1, h2, h3⟩ := List.map_eq_cons_iff.mp hl
      rw [List.map_eq_nil_iff] at h3
      subst h3
      subst h1
      have hno : p.no = root := congrArg Prod.snd h2
      have hbr : Spec.BranchAt c f p none none := ht.rows.1.1
      have hpin := ht.placed.inside p.no (by simp [Spec.numbers])
      obtain ⟨flags, rest, hb1, hb2, hb3, hb4, hb5, hb6, hb7⟩ := branchAt_iff.mp hbr
      obtain ⟨k1, _, k3, _, _⟩ := rd_hd flags p.ents.length (Spec.linkTo c none) (Spec.linkTo c none) (p.ents.flatMap (Spec.refBytes c) ++ rest) hb1 hb3 hb4 hb5
      have hbef : ∀ r ∈ p.ents, Spec.Before r.1.key key := by
        have hpw := ends_pairwise bs leaves ht.rows.2.2 ht.ordered
        rw [← ht.rows.2.1, List.pairwise_map] at hpw
        have hpp := (List.pairwise_flatMap.mp hpw).1 p (List.mem_cons_self ..)
        obtain ⟨z, hz1, hz2⟩ := Option.map_eq_some_iff.mp (congrArg Prod.fst h2)
        obtain ⟨N, z', hz⟩ := (List.eq_nil_or_concat p.ents).resolve_left (by intro hn; rw [hn] at hz1; cases hz1)
        rw [List.concat_eq_append] at hz
        rw [hz, List.getLast?_concat] at hz1
        cases hz1
        intro r hr
        rw [hz] at hr hpp
        have hz2' : z.1.key = l.key := by rw [hz2]
        rcases List.mem_append.mp hr with hr | hr
        · have := (List.pairwise_append.mp hpp).2.2 r hr z (List.mem_singleton.mpr rfl) _ _ rfl rfl
          rw [hz2'] at this
          exact before_trans this hb
        · rw [List.mem_singleton.mp hr, hz2']; exact hb
      rw [← hno]
      unfold deleteEntry
      rw [deleteAt, getData_page hpin.2, Outcome.ok_bind, hb7, k1, Outcome.ok_bind, if_neg (flag_low hb2).1, k3, Outcome.ok_bind,
        seek_none p.ents _ _ rest 0 hb6 rfl (by rw [hd_length]; simp [Conf.slot]) hbef]
      rfl
  · obtain ⟨f', g, bs', leaves', hd, R⟩ := del_sub ht.sizes hk bs fuel f leaves [] [] l root hfuel ht.rows ht.placed ht.ordered hl
      (fun _ h => absurd h List.not_mem_nil) hb hroom hfwd
    refine ⟨f', bs', leaves', ?_, ⟨ht.sizes, R.rows, ?_, ⟨R.numbers.nodup ht.placed.nodup, ?_, ?_⟩, R.ordered⟩, R.contents, R.numbers, R.elsewhere, R.free⟩
    · unfold deleteEntry
      rw [hd]
      rfl
    · rw [R.ends]
      cases g with
      | same => rfl
      | newLast e => rfl
      | emptied =>
        exfalso
        have := ends_nil bs' leaves' R.rows R.ends
        rw [← R.contents, this] at hne
        exact hne rfl
    · intro n hn
      rw [R.elsewhere.1]
      exact ht.placed.inside n (R.numbers.subset hn)
    · rw [R.elsewhere.1]; exact ht.placed.small

theorem page_in {c : Conf} {f : Bytes} {b : Base} (hf : b.file = f) (hv : b.v838 = c.v838) (hp : b.pagesize = c.P.pagesize) {n : Nat}
    (h : (n + 1) * c.P.pagesize ≤ f.length) : Spec.PageAt b (Spec.linkTo c (some n)) (Spec.bytesOf c.P.pagesize f n) := by
  have h' := h
  rw [Nat.add_mul, Nat.one_mul] at h'
  refine ⟨f.take (n * c.P.pagesize), f.drop (n * c.P.pagesize + c.P.pagesize), ?_, ?_, by rw [hp]; exact bytesOf_length h⟩
  · unfold Spec.bytesOf
    rw [hf, ← List.drop_drop, List.take_append_drop, List.take_append_drop]
  · rw [List.length_take, Nat.min_eq_left (by omega), hv, hp]
    unfold Spec.linkTo
    dsimp only
    split <;> rfl

/-- The leaves as the walk sees them. -/
theorem leaves_walk {c : Conf} (hs : Spec.Sizes c) {f : Bytes} (hsm : f.length < 2 ^ 32) {b : Base} (hf : b.file = f) (hv : b.v838 = c.v838) (hp : b.pagesize = c.P.pagesize)
    (leaves : List (Spec.Pg Entry)) (p : Spec.Pg Entry) (prev : Option Nat) (h : Spec.Row (Spec.LeafAt c f) prev (p :: leaves) none)
    (hin : ∀ q ∈ p :: leaves, (q.no + 1) * c.P.pagesize ≤ f.length) :
    Spec.Leaves b (Spec.linkTo c (some p.no)) ((p :: leaves).map (fun q => q.ents.map (·.num))) := by
  induction leaves generalizing p prev with
  | nil =>
    obtain ⟨nx, hnx⟩ := h.1.holds.lists
    exact .last (page_in hf hv hp (hin p (List.mem_cons_self ..))) ⟨hnx.flag, hnx.count, h.1.next, hnx.recs⟩
  | cons q leaves ih =>
    obtain ⟨nx, hnx⟩ := h.1.holds.lists
    refine .more (page_in hf hv hp (hin p (List.mem_cons_self ..))) ⟨hnx.flag, hnx.count, h.1.next, hnx.recs⟩ ?_ (ih q _ h.2 (fun r hr => hin r (List.mem_cons_of_mem _ hr)))
    exact Nat.ne_of_lt (link_small hs hsm (hin q (List.mem_cons_of_mem _ (List.mem_cons_self ..))))

/-- The way down to the first leaf. -/
theorem leftmost_walk {c : Conf} (hs : Spec.Sizes c) {f : Bytes} (hsm : f.length < 2 ^ 32) {b : Base} (hf : b.file = f) (hv : b.v838 = c.v838) (hp : b.pagesize = c.P.pagesize)
    (bs : List (List (Spec.Pg Spec.Ref))) (leaves : List (Spec.Pg Entry)) (l : Entry) (no : Nat) (T : List (Option Entry × Nat)) (h : Spec.Rows c f bs leaves)
    (hin : ∀ n ∈ Spec.numbers bs leaves, (n + 1) * c.P.pagesize ≤ f.length) (he : Spec.ends bs leaves = (some l, no) :: T) :
    ∃ p P, leaves = p :: P ∧ Spec.Leftmost b c.P.len (Spec.linkTo c (some no)) (Spec.linkTo c (some p.no)) := by
  induction bs generalizing l no T with
  | nil =>
    obtain ⟨p, P, rfl, h2, h3⟩ := List.map_eq_cons_iff.mp he
    have hno : p.no = no := congrArg Prod.snd h2
    subst hno
    obtain ⟨nx, hnx⟩ := h.1.holds.lists
    exact ⟨p, P, rfl, .leaf (page_in hf hv hp (hin _ (by simp [Spec.numbers]))) hnx⟩
  | cons row bs ih =>
    obtain ⟨q, Q, rfl, h2, h3⟩ := List.map_eq_cons_iff.mp he
    have hno : q.no = no := congrArg Prod.snd h2
    subst hno
    obtain ⟨z, hz1, hz2⟩ := Option.map_eq_some_iff.mp (congrArg Prod.fst h2)
    obtain ⟨x, E, hE⟩ : ∃ x E, q.ents = x :: E := by
      cases hq : q.ents with
      | nil => rw [hq] at hz1; cases hz1
      | cons x E => exact ⟨x, E, rfl⟩
    have hbelow : Spec.ends bs leaves = (some x.1, x.2) :: ((E ++ Q.flatMap (·.ents)).map (fun r => (some r.1, r.2))) := by
      rw [← h.2.1, List.flatMap_cons, hE]
      rfl
    rw [numbers_cons] at hin
    obtain ⟨p, P, hl, hlm⟩ := ih x.1 x.2 _ h.2.2 (fun n hn => hin n (List.mem_append_right _ hn)) hbelow
    have hxin : (x.2 + 1) * c.P.pagesize ≤ f.length := by
      refine hin _ (List.mem_append_right _ ?_)
      have h1 : (some x.1, x.2) ∈ Spec.ends bs leaves := by rw [hbelow]; exact List.mem_cons_self ..
      unfold Spec.numbers
      cases bs with
      | nil =>
        obtain ⟨q, hq, hq2⟩ := List.mem_map.mp h1
        exact List.mem_append_right _ (List.mem_map.mpr ⟨q, hq, congrArg Prod.snd hq2⟩)
      | cons r bs =>
        obtain ⟨q, hq, hq2⟩ := List.mem_map.mp h1
        rw [List.map_cons, List.flatten_cons]
        exact List.mem_append_left _ (List.mem_append_left _ (List.mem_map.mpr ⟨q, hq, congrArg Prod.snd hq2⟩))
    refine ⟨p, P, hl, .branch (page_in hf hv hp (hin _ (by simp))) ?_ hlm⟩
    obtain ⟨flags, rest, hb1, hb2, hb3, hb4, hb5, hb6, hb7⟩ := branchAt_iff.mp h.1.1
    rw [hb7]
    refine ⟨⟨flags % 256, ⟨[], UInt8.ofNat (flags / 256) :: ((le 2 q.ents.length ++ (le 4 (Spec.linkTo c none) ++ le 4 (Spec.linkTo c (((Q.head?).map (·.no)).or none)))) ++ (q.ents.flatMap (Spec.refBytes c) ++ rest)), ?_, rfl, Nat.mod_lt _ (by decide)⟩, ?_⟩, ?_⟩
    · unfold hd
      simp only [le, List.cons_append, List.nil_append]
      congr 1
      rw [UInt8.ofNat_mod_size]
    · rw [show (256 : Nat) = 2 ^ 8 from rfl, Nat.testBit_mod_two_pow, hb2]; rfl
    · refine ⟨hd flags q.ents.length (Spec.linkTo c none) (Spec.linkTo c (((Q.head?).map (·.no)).or none)) ++ (x.1.key ++ (le 4 x.1.num).reverse), E.flatMap (Spec.refBytes c) ++ rest, ?_, ?_, ?_⟩
      · rw [hE, List.flatMap_cons, Spec.refBytes]
        simp only [List.append_assoc]
      · simp only [List.length_append, hd_length, List.length_reverse, le_length, (hb6 x (by rw [hE]; exact List.mem_cons_self ..)).1]
        omega
      · have := link_small hs hsm hxin
        unfold lastPage at this
        omega

/-- What C39 reads out of such an index is its contents. -/
theorem walk_index (c : Conf) (b : Base) (root : Nat) (bs : List (List (Spec.Pg Spec.Ref))) (leaves : List (Spec.Pg Entry)) (ht : Spec.Tree c b.file root bs leaves)
    (hv : b.v838 = c.v838) (hp : b.pagesize = c.P.pagesize) (hne : Spec.contents leaves ≠ []) (hh : Spec.Header b (Spec.linkTo c (some root)) c.P.len)
    (hr : (Spec.contents leaves).length ≤ b.room) :
    ∃ fuel, ∀ k, fuel ≤ k → walk b k = .ok (some ((Spec.contents leaves).map (·.num))) := by
  obtain ⟨l, hl⟩ := tree_top ht hne
  have hin : ∀ n ∈ Spec.numbers bs leaves, (n + 1) * c.P.pagesize ≤ b.file.length := fun n hn => (ht.placed.inside n hn).2
  obtain ⟨p, P, rfl, hlm⟩ := leftmost_walk ht.sizes ht.placed.small rfl hv hp bs leaves l root [] ht.rows hin hl
  have hrow : ∃ prev, Spec.Row (Spec.LeafAt c b.file) prev (p :: P) none := by
    have := ht.rows
    clear hl hlm hin hh hr ht
    induction bs with
    | nil => exact ⟨none, this⟩
    | cons r bs ih => exact ih this.2.2
  obtain ⟨prev, hrow⟩ := hrow
  have hlv := leaves_walk ht.sizes ht.placed.small rfl hv hp P p prev hrow (fun q hq => hin _ (List.mem_append_right _ (List.mem_map.mpr ⟨q, hq, rfl⟩)))
  have hcount : ∃ page n, Spec.PageAt b (Spec.linkTo c (some root)) page ∧ Spec.At page 2 2 n ∧ 0 < n := by
    cases bs with
    | nil =>
      obtain ⟨q, Q, h1, h2, h3⟩ := List.map_eq_cons_iff.mp hl
      cases h1
      have hno : p.no = root := congrArg Prod.snd h2
      obtain ⟨nx, hnx⟩ := ht.rows.1.holds.lists
      refine ⟨_, _, page_in rfl hv hp (hno ▸ hin p.no (by simp [Spec.numbers])), hno ▸ hnx.count.1, ?_⟩
      rw [List.length_map]
      exact List.length_pos_iff.mpr (ht.ordered.entries p (List.mem_cons_self ..)).2.2
    | cons row bs =>
      obtain ⟨q, Q, rfl, h2, h3⟩ := List.map_eq_cons_iff.mp hl
      have hno : q.no = root := congrArg Prod.snd h2
      obtain ⟨z, hz1, hz2⟩ := Option.map_eq_some_iff.mp (congrArg Prod.fst h2)
      obtain ⟨flags, rest, hb1, hb2, hb3, hb4, hb5, hb6, hb7⟩ := branchAt_iff.mp ht.rows.1.1
      refine ⟨_, q.ents.length, page_in rfl hv hp (hno ▸ hin q.no (by rw [numbers_cons]; simp)), ?_, ?_⟩
      · rw [← hno, hb7]
        exact ⟨le 2 flags, (le 4 (Spec.linkTo c none) ++ le 4 (Spec.linkTo c (((Q.head?).map (·.no)).or none))) ++ (q.ents.flatMap (Spec.refBytes c) ++ rest),
          by unfold hd; simp only [List.append_assoc], le_length _ _, by omega⟩
      · cases hq : q.ents with
        | nil => rw [hq] at hz1; cases hz1
        | cons x E => simp
  obtain ⟨page, n, hc1, hc2, hc3⟩ := hcount
  obtain ⟨fuel, hfuel⟩ := walk_lists b _ _ n _ page _ hh hc1 hc2 hc3 hlm hlv
  refine ⟨fuel, ?_⟩
  intro k hk
  have e : ((p :: P).map (fun q => q.ents.map (·.num))).flatten = (Spec.contents (p :: P)).map (·.num) := by
    unfold Spec.contents
    rw [List.map_flatMap, List.flatMap_def]
  rw [hfuel k hk, e, List.length_map, if_pos hr]

theorem at_same {f f' : Bytes} {off k n : Nat} (h : Spec.At f off k n) (hl : f'.length = f.length) (hs : ∀ i, i < k → f'[off + i]? = f[off + i]?) :
    Spec.At f' off k n := by
  obtain ⟨pre, post, h1, h2, h3⟩ := h
  have hlen : f.length = off + k + post.length := by rw [h1]; simp only [List.length_append, le_length]; omega
  refine ⟨f'.take off, f'.drop (off + k), ?_, by rw [List.length_take]; omega, h3⟩
  have e : (f'.drop off).take k = le k n := by
    have e2 : (f.drop off).take k = le k n := by rw [h1, List.drop_left' h2, List.take_left' (le_length _ _)]
    rw [← e2]
    apply List.ext_getElem?
    intro i
    by_cases hi : i < k
    · rw [List.getElem?_take_of_lt hi, List.getElem?_take_of_lt hi, List.getElem?_drop, List.getElem?_drop, hs i hi]
    · rw [List.getElem?_eq_none (by rw [List.length_take]; omega), List.getElem?_eq_none (by rw [List.length_take]; omega)]
  rw [← e, ← List.drop_drop, List.take_append_drop, List.take_append_drop]

theorem header_same {c : Conf} {b : Base} {f' : Bytes} {nos : List Nat} {root len : Nat} (hh : Spec.Header b root len) (he : Spec.Elsewhere c nos b.file f') (h4 : 4 ≤ b.start)
    (hst : ∀ i, i < 8 → (b.start + i) / c.P.pagesize ∉ nos) : Spec.Header { b with file := f' } root len := by
  obtain ⟨h0, h8, h1, h2, h3⟩ := hh
  refine ⟨h0, by rw [he.1]; exact h8, at_same h1 he.1 ?_, at_same h2 he.1 ?_, h3⟩
  · intro i hi
    show f'[b.start + i]? = b.file[b.start + i]?
    exact he.2 _ (by omega) (hst i (by omega))
  · intro i hi
    show f'[b.start + 4 + i]? = b.file[b.start + 4 + i]?
    rw [Nat.add_assoc]
    exact he.2 _ (by omega) (hst (4 + i) (by omega))

/-- C75, what a user of the index sees: after the removal a walk of the index gives the record
numbers of the other entries, in their order. -/
theorem delete_then_walk_partial (c : Conf) (b : Base) (root : Nat) (bs : List (List (Spec.Pg Spec.Ref))) (leaves : List (Spec.Pg Entry)) (num : Nat) (key : Bytes)
    (fuel : Nat) (ht : Spec.Tree c b.file root bs leaves) (hk : key.length = c.P.len) (hfuel : bs.length < fuel)
    (hne : (Spec.contents leaves).erase ⟨num, key⟩ ≠ [])
    (hroom : ∀ p ∈ leaves, (⟨num, key⟩ : Entry) ∈ p.ents → p.ents.erase ⟨num, key⟩ ≠ [] → Spec.Room c (p.ents.erase ⟨num, key⟩))
    (hfwd : c.fwd = true ∨ ∀ p ∈ leaves, (⟨num, key⟩ : Entry) ∈ p.ents → p.ents.erase ⟨num, key⟩ ≠ [])
    (hv : b.v838 = c.v838) (hp : b.pagesize = c.P.pagesize) (hh : Spec.Header b (Spec.linkTo c (some root)) c.P.len) (h4 : 4 ≤ b.start)
    (hst : ∀ i, i < 8 → (b.start + i) / c.P.pagesize ∉ Spec.numbers bs leaves) (hr : (Spec.contents leaves).length ≤ b.room) :
    ∃ f', deleteEntry c fuel b.file (root * c.P.pagesize) num key = .ok (some f') ∧
      ∃ k, ∀ k', k ≤ k' → walk { b with file := f' } k' = .ok (some (((Spec.contents leaves).erase ⟨num, key⟩).map (·.num))) := by
  obtain ⟨f', bs', leaves', h1, h2, h3, h4', h5, _⟩ := delete_from_index_partial c b.file root bs leaves num key fuel ht hk hfuel hne hroom hfwd
  refine ⟨f', h1, ?_⟩
  rw [← h3]
  exact walk_index c { b with file := f' } root bs' leaves' h2 hv hp (by rw [h3]; exact hne) (header_same hh h5 h4 hst)
    (by rw [h3]; exact Nat.le_trans (List.length_erase_le) hr)

/-- C76, the part that holds. Adding an entry to an index that has entries, whose keys do not go on
from one leaf to the next, and where the leaf it belongs on has room for it, adds exactly that entry
in its place: the file is again such an index, with the same root and the same pages, and nothing is
changed outside of them; the free pages are the same. In a primary index no entry has the same key.
Excluded are two equal keys at the end of a leaf, as in C60. Missing: leaves without room. -/
theorem insert_into_index_partial (c : Conf) (junk f : Bytes) (root : Nat) (bs : List (List (Spec.Pg Spec.Ref))) (leaves : List (Spec.Pg Entry)) (num : Nat) (key : Bytes)
    (fuel start : Nat) (ht : Spec.Tree c f root bs leaves) (hk : key.length = c.P.len) (hn : num < 2 ^ 32) (hfuel : bs.length < fuel)
    (hne : Spec.contents leaves ≠ []) (hprim : c.P.primary = true → ∀ x ∈ Spec.contents leaves, x.key ≠ key) (hnew : (⟨num, key⟩ : Entry) ∉ Spec.contents leaves)
    (hroom : ∀ A p B, leaves = A ++ p :: B → Spec.Belongs key A p B → ∀ new, Spec.Inserted ⟨num, key⟩ p.ents new → Spec.Room c new ∧ Spec.EndsApart new) :
    ∃ f' bs' leaves', writeEntry c junk fuel start f (root * c.P.pagesize) num key = .ok (some (f', root * c.P.pagesize)) ∧ Spec.Tree c f' root bs' leaves' ∧
      Spec.Inserted ⟨num, key⟩ (Spec.contents leaves) (Spec.contents leaves') ∧ Spec.numbers bs' leaves' = Spec.numbers bs leaves ∧
      Spec.Elsewhere c (Spec.numbers bs leaves) f f' ∧ f'.take 4 = f.take 4 ∧
      (∀ ns, Spec.Free c f ns → (∀ n ∈ ns, n ∉ Spec.numbers bs leaves) → Spec.Free c f' ns) := by
  obtain ⟨l, hl⟩ := tree_top ht hne
  obtain ⟨f', g, bs', leaves', hd, R⟩ := ins_sub ht.sizes junk hk hn bs fuel f leaves [] [] l root hfuel hprim hnew ht.rows ht.placed ht.ordered hl
    (fun _ h => absurd h List.not_mem_nil) (.inr rfl) hroom
  have hps := ht.sizes.page
  refine ⟨f', bs', leaves', ?_, ⟨ht.sizes, R.rows, ?_, ⟨?_, ?_, ?_⟩, R.ordered⟩, R.contents, R.numbers, R.elsewhere, R.head,
    fun ns h1 h2 => free_keep (by omega) h1 R.elsewhere R.head h2⟩
  · unfold writeEntry
    rw [hd, Outcome.ok_bind]
    rcases R.done with rfl | ⟨rfl, _⟩ <;> rfl
  · rw [R.ends]
    rcases R.done with rfl | ⟨rfl, _⟩ <;> rfl
  · rw [R.numbers]; exact ht.placed.nodup
  · intro n hn
    rw [R.numbers] at hn
    rw [R.elsewhere.1]
    exact ht.placed.inside n hn
  · rw [R.elsewhere.1]; exact ht.placed.small

/-- C76, what a user of the index sees: after the addition a walk of the index gives the record
numbers with the new one in the place of its key. -/
theorem insert_then_walk_partial (c : Conf) (junk : Bytes) (b : Base) (root : Nat) (bs : List (List (Spec.Pg Spec.Ref))) (leaves : List (Spec.Pg Entry)) (num : Nat) (key : Bytes)
    (fuel : Nat) (ht : Spec.Tree c b.file root bs leaves) (hk : key.length = c.P.len) (hn : num < 2 ^ 32) (hfuel : bs.length < fuel)
    (hne : Spec.contents leaves ≠ []) (hprim : c.P.primary = true → ∀ x ∈ Spec.contents leaves, x.key ≠ key) (hnew : (⟨num, key⟩ : Entry) ∉ Spec.contents leaves)
    (hroom : ∀ A p B, leaves = A ++ p :: B → Spec.Belongs key A p B → ∀ new, Spec.Inserted ⟨num, key⟩ p.ents new → Spec.Room c new ∧ Spec.EndsApart new)
    (hv : b.v838 = c.v838) (hp : b.pagesize = c.P.pagesize) (hh : Spec.Header b (Spec.linkTo c (some root)) c.P.len) (h4 : 4 ≤ b.start)
    (hst : ∀ i, i < 8 → (b.start + i) / c.P.pagesize ∉ Spec.numbers bs leaves) (hr : (Spec.contents leaves).length + 1 ≤ b.room) :
    ∃ f' new, writeEntry c junk fuel b.start b.file (root * c.P.pagesize) num key = .ok (some (f', root * c.P.pagesize)) ∧
      Spec.Inserted ⟨num, key⟩ (Spec.contents leaves) new ∧
      ∃ k, ∀ k', k ≤ k' → walk { b with file := f' } k' = .ok (some (new.map (·.num))) := by
  obtain ⟨f', bs', leaves', h1, h2, h3, h4', h5, _⟩ := insert_into_index_partial c junk b.file root bs leaves num key fuel b.start ht hk hn hfuel hne hprim hnew hroom
  refine ⟨f', _, h1, h3, ?_⟩
  obtain ⟨u, v, e1, e2, _⟩ := h3
  refine walk_index c { b with file := f' } root bs' leaves' h2 hv hp ?_ (header_same hh h5 h4 hst) ?_
  · rw [e2]; simp
  · rw [e2]; rw [e1] at hr; simp only [List.length_append, List.length_cons] at hr ⊢; omega

end Verif.Index
