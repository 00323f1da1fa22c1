import Verif.Index.TreeTheorems
import Mathlib.Tactic.FinCases

/-! # An index of two leaves, and where removing and adding go wrong (C75, C76) -/

namespace Verif.Index
open Verif Blob

/-! ## A concrete index -/

/-- Pages of 64 bytes. -/
abbrev confOf (len : Nat) : Conf := ⟨⟨false, len, 64⟩, true, true, id⟩

/-- Keys of two bytes, pages of 64. -/
abbrev smallConf : Conf := confOf 2

/-- A leaf page as the packer makes it. -/
def packed (es : List Entry) (len : Nat := 2) : Bytes :=
  match pack false len 64 [] es (List.replicate 64 0) with
  | .ok (some p) => p
  | _ => []

/-- A branch page without neighbours. -/
def branch (es : List (Entry × Nat)) : Bytes :=
  let p := le 2 1 ++ (le 2 es.length ++ (le 4 lastPage ++ le 4 lastPage)) ++ es.flatMap (Spec.refBytes smallConf)
  p ++ List.replicate (64 - p.length) 0

/-- The first page: no free pages; at 16 the index, with its root page and the length of keys. -/
def firstPage (root len : Nat) : Bytes := le 4 0 ++ List.replicate 12 0 ++ le 4 root ++ le 2 len ++ List.replicate 42 0

def leafA : List Entry := [⟨1, [5, 6]⟩, ⟨4, [5, 9]⟩]
def leafB : List Entry := [⟨2, [7, 0]⟩]
def rootAB : List (Entry × Nat) := [(⟨4, [5, 9]⟩, 2), (⟨2, [7, 0]⟩, 3)]

/-- A file with an index of a root page and two leaves. -/
def smallFile : Bytes := firstPage 1 2 ++ branch rootAB ++ setHdr (packed leafA) 2 lastPage 3 ++ setHdr (packed leafB) 2 2 lastPage

theorem smallSizes : Spec.Sizes smallConf := ⟨by decide, by decide⟩

theorem room_of {c : Conf} (hs : Spec.Sizes c) {es : List Entry} (he : Spec.Entries c.P.len es) (h1 : es.length < 32768)
    (h2 : Spec.Fits c.P.pagesize c.P.len es (recBytes c.P.len es)) (h3 : Spec.Readable c.P.pagesize es (recBytes c.P.len es)) : Spec.Room c es := by
  refine ⟨h1, fun w hw => ?_⟩
  rw [isWidth_unique hw (recBytes_isWidth _ hs.key.2 es he)]
  exact ⟨h2, h3⟩

theorem at_of {b : Bytes} {off k n : Nat} (h : b = b.take off ++ (le k n ++ b.drop (off + k))) (hn : n < 256 ^ k) (hl : off ≤ b.length) : Spec.At b off k n :=
  ⟨b.take off, b.drop (off + k), h, by rw [List.length_take]; omega, hn⟩

theorem small_leaf {len : Nat} (hs : Spec.Sizes (confOf len)) {f : Bytes} {no : Nat} {es : List Entry} {prev next : Option Nat}
    (hp : Spec.bytesOf 64 f no = setHdr (packed es len) 2 (Spec.linkTo (confOf len) prev) (Spec.linkTo (confOf len) next)) (he : Spec.Entries len es) (hne : es ≠ [])
    (h2 : Spec.Fits 64 len es (recBytes len es)) (h3 : Spec.Readable 64 es (recBytes len es)) (h1 : es.length < 32768)
    (hk : pack false len 64 [] es (List.replicate 64 0) = .ok (some (packed es len))) (ha : Spec.linkTo (confOf len) prev < 2 ^ 32)
    (hb : Spec.linkTo (confOf len) next < 2 ^ 32) : Spec.LeafAt (confOf len) f ⟨no, es⟩ prev next := by
  have := packed_holds hs [] es (List.replicate 64 0) (packed es len) 2 (Spec.linkTo (confOf len) prev) (Spec.linkTo (confOf len) next) he hne (by simp)
    (room_of hs he h1 h2 h3) hk (by decide) (by decide) hb
  have hl : (packed es len).length = 64 := (pack_keeps_links _ _ _ _ _ _ _ (by decide) (by simp) hk).1
  refine ⟨?_, ?_, ?_⟩
  · show Spec.LeafHolds (confOf len) (Spec.bytesOf 64 f no) es
    rw [hp]; exact this.1
  · show Spec.At (Spec.bytesOf 64 f no) 4 4 _
    rw [hp]; exact (setHdr_at (by omega) ha hb).1
  · show Spec.At (Spec.bytesOf 64 f no) 8 4 _
    rw [hp]; exact (setHdr_at (by omega) ha hb).2

theorem small_tree : Spec.Tree smallConf smallFile 1 [[⟨1, rootAB⟩]] [⟨2, leafA⟩, ⟨3, leafB⟩] := by
  have hA : Spec.Entries 2 leafA := by intro e he; fin_cases he <;> decide
  have hB : Spec.Entries 2 leafB := by intro e he; fin_cases he; decide
  refine ⟨smallSizes, ⟨⟨?_, trivial⟩, by decide, ?_, ?_, trivial⟩, by decide, ⟨by decide, ?_, by decide +kernel⟩, ?_, ?_⟩
  · refine ⟨1, List.replicate 32 0, by decide, by decide, by decide, by decide, by decide, ?_, by decide +kernel⟩
    intro r hr
    fin_cases hr <;> decide
  · exact small_leaf smallSizes (by decide +kernel) hA (by decide) (by unfold Spec.Fits; decide +kernel) (by unfold Spec.Readable; decide +kernel) (by decide)
      (by decide +kernel) (by decide) (by decide)
  · exact small_leaf smallSizes (by decide +kernel) hB (by decide) (by unfold Spec.Fits; decide +kernel) (by unfold Spec.Readable; decide +kernel) (by decide)
      (by decide +kernel) (by decide) (by decide)
  · intro n hn
    have : n ∈ [1, 2, 3] := hn
    have hl : smallFile.length = 256 := by decide +kernel
    rw [hl]
    fin_cases this <;> decide
  · intro p hp
    have : p ∈ [(⟨2, leafA⟩ : Spec.Pg Entry), ⟨3, leafB⟩] := hp
    fin_cases this
    · exact ⟨hA, ⟨.inl ⟨1, 6, 9, rfl, rfl, rfl, by decide⟩, trivial⟩, by decide⟩
    · exact ⟨hB, trivial, by decide⟩
  · refine List.pairwise_cons.mpr ⟨?_, List.pairwise_singleton _ _⟩
    intro q hq x hx y hy
    cases List.mem_singleton.mp hq
    cases List.mem_singleton.mp hy
    have hx' : x ∈ [(⟨1, [5, 6]⟩ : Entry), ⟨4, [5, 9]⟩] := hx
    fin_cases hx' <;> exact ⟨0, 5, 7, rfl, rfl, rfl, by decide⟩

theorem small_header : Spec.Header ⟨smallFile, 64, true, 16, 10⟩ 1 2 :=
  ⟨by decide, by decide +kernel, at_of (by decide +kernel) (by decide) (by decide +kernel), at_of (by decide +kernel) (by decide) (by decide +kernel), by decide⟩

/-- `delete_then_walk_partial`, and with it `delete_from_index_partial` and `walk_index`, apply: the
last entry of the first leaf, which the root repeats, is removed. -/
example : ∃ f', deleteEntry smallConf 5 smallFile 64 4 [5, 9] = .ok (some f') ∧ ∃ k, ∀ k', k ≤ k' → walk ⟨f', 64, true, 16, 10⟩ k' = .ok (some [1, 2]) := by
  refine delete_then_walk_partial smallConf ⟨smallFile, 64, true, 16, 10⟩ 1 _ _ 4 [5, 9] 5 small_tree rfl (by decide) (by decide) ?_ (.inl rfl) rfl rfl small_header
    (by decide) (by decide) (by decide)
  intro p hp hm _
  have : p ∈ [(⟨2, leafA⟩ : Spec.Pg Entry), ⟨3, leafB⟩] := hp
  fin_cases this
  · exact room_of smallSizes (by intro e he; have : e ∈ [(⟨1, [5, 6]⟩ : Entry)] := he; fin_cases this; decide) (by decide) (by unfold Spec.Fits; decide +kernel)
      (by unfold Spec.Readable; decide +kernel)
  · exact absurd hm (by decide)

/-- `insert_then_walk_partial`, and with it `insert_into_index_partial`, apply: a key between the
leaves goes to the second one. -/
example : ∃ f' new, writeEntry smallConf [] 5 16 smallFile 64 9 [6, 0] = .ok (some (f', 64)) ∧ Spec.Inserted ⟨9, [6, 0]⟩ (leafA ++ leafB) new ∧
    ∃ k, ∀ k', k ≤ k' → walk ⟨f', 64, true, 16, 10⟩ k' = .ok (some (new.map (·.num))) := by
  refine insert_then_walk_partial smallConf [] ⟨smallFile, 64, true, 16, 10⟩ 1 _ _ 9 [6, 0] 5 small_tree rfl (by decide) (by decide) (by decide) (by decide) (by decide) ?_ rfl rfl
    small_header (by decide) (by decide) (by decide)
  intro A p B hAB hbel new hnew
  have hcase : A = [] ∧ p = ⟨2, leafA⟩ ∧ B = [⟨3, leafB⟩] ∨ p = ⟨3, leafB⟩ := by
    cases A with
    | nil => injection hAB with h1 h2; exact .inl ⟨rfl, h1.symm, h2.symm⟩
    | cons a A =>
      injection hAB with h1 h2
      cases A with
      | nil => injection h2 with h1 h2; exact .inr h1.symm
      | cons b A => injection h2 with h1 h2; cases A <;> cases h2
  rcases hcase with ⟨rfl, rfl, rfl⟩ | rfl
  · -- the first leaf is all before it
    exfalso
    rcases hbel.2 with h | ⟨x, hx, hb⟩
    · cases h
    · have hx' : x ∈ [(⟨1, [5, 6]⟩ : Entry), ⟨4, [5, 9]⟩] := hx
      fin_cases hx' <;> exact hb (by decide)
  · obtain ⟨a, b, h1, rfl, h3, h4⟩ := hnew
    have h1' : [(⟨2, [7, 0]⟩ : Entry)] = a ++ b := h1
    have hab : a = [] ∧ b = leafB := by
      cases a with
      | nil => exact ⟨rfl, h1.symm⟩
      | cons x a =>
        injection h1' with g1 g2
        subst g1
        exact absurd (h3 _ (List.mem_cons_self ..)) (by decide)
    obtain ⟨rfl, rfl⟩ := hab
    refine ⟨room_of smallSizes ?_ (by decide) (by unfold Spec.Fits; decide +kernel) (by unfold Spec.Readable; decide +kernel), ?_⟩
    · intro e he
      have : e ∈ [(⟨9, [6, 0]⟩ : Entry), ⟨2, [7, 0]⟩] := he
      fin_cases this <;> decide
    · intro pre x y h
      have h' : [(⟨9, [6, 0]⟩ : Entry), ⟨2, [7, 0]⟩] = pre ++ [x, y] := h
      cases pre with
      | nil => injection h' with g1 g2; injection g2 with g2 _; subst g1; subst g2; decide
      | cons z pre => injection h' with _ g2; have := congrArg List.length g2; simp at this

/-! ## What goes wrong -/

theorem ends_none {c : Conf} {f : Bytes} : ∀ bs : List (List (Spec.Pg Spec.Ref)), Spec.Rows c f bs [] → ∀ t ∈ Spec.ends bs [], t.1 = none := by
  intro bs
  induction bs with
  | nil => intro _ t ht; cases ht
  | cons row bs ih =>
    intro h t ht
    obtain ⟨p, hp, rfl⟩ := List.mem_map.mp ht
    cases hE : p.ents with
    | nil => rfl
    | cons r E =>
      have hm : (some r.1, r.2) ∈ Spec.ends bs [] := by
        rw [← h.2.1]
        exact List.mem_map.mpr ⟨r, List.mem_flatMap.mpr ⟨p, hp, by rw [hE]; exact List.mem_cons_self ..⟩, rfl⟩
      exact absurd (ih h.2.2 _ hm) (by simp)

theorem numbers_nil {c : Conf} {f : Bytes} : ∀ bs : List (List (Spec.Pg Spec.Ref)), Spec.Rows c f bs [] → Spec.ends bs [] = [] → Spec.numbers bs [] = [] := by
  intro bs
  induction bs with
  | nil => intro _ _; rfl
  | cons row bs ih =>
    intro h he
    have hrow : row = [] := List.map_eq_nil_iff.mp he
    subst hrow
    have := ih h.2.2 h.2.1.symm
    rw [numbers_cons, this]
    rfl

/-- C75, a disagreement: removing the last entry of an index puts all of its pages on the list of
free pages, the root page among them, although the index goes on naming it as its root. -/
theorem delete_last_entry_frees_root (c : Conf) (f : Bytes) (root : Nat) (bs : List (List (Spec.Pg Spec.Ref))) (leaves : List (Spec.Pg Entry)) (num : Nat) (key : Bytes)
    (fuel : Nat) (ns : List Nat) (ht : Spec.Tree c f root bs leaves) (hk : key.length = c.P.len) (hfuel : bs.length < fuel)
    (hone : Spec.contents leaves = [⟨num, key⟩]) (hfwd : c.fwd = true) (hfree : Spec.Free c f ns) (hns : ∀ n ∈ ns, n ∉ Spec.numbers bs leaves) :
    ∃ f' ms, deleteEntry c fuel f (root * c.P.pagesize) num key = .ok (some f') ∧ Spec.Free c f' (ms ++ ns) ∧ ms.Perm (Spec.numbers bs leaves) ∧ root ∈ ms := by
  obtain ⟨l, hl⟩ := tree_top ht (by rw [hone]; exact List.cons_ne_nil _ _)
  have hb : ¬ Spec.Before l.key key := by
    intro hb
    have hall := all_bounded bs leaves ht.rows ht.ordered (key := key) (by
      intro t htm l' hl'
      rw [hl, List.mem_singleton] at htm
      rw [htm] at hl'
      cases hl'
      exact hb)
    exact before_irrefl _ (hall ⟨num, key⟩ (by rw [hone]; exact List.mem_cons_self ..))
  obtain ⟨f', g, bs', leaves', hd, R⟩ := del_sub (num := num) ht.sizes hk bs fuel f leaves [] [] l root hfuel ht.rows ht.placed ht.ordered hl
    (fun _ h => absurd h List.not_mem_nil) hb (by
      intro p hp hm hne
      exfalso
      have hsub : p.ents.Sublist [⟨num, key⟩] := by
        rw [← hone]
        exact List.sublist_flatten_of_mem (List.mem_map.mpr ⟨p, hp, rfl⟩)
      have := hsub.length_le
      rcases hE : p.ents with _ | ⟨x, E⟩
      · rw [hE] at hm; cases hm
      · rw [hE] at this hm hne
        have hE0 : E = [] := by cases E with | nil => rfl | cons _ _ => simp at this
        subst hE0
        cases List.mem_singleton.mp hm
        exact hne (by simp)) (.inl hfwd)
  have hc0 : Spec.contents leaves' = [] := by rw [R.contents, hone]; simp
  have hl0 : leaves' = [] := by
    cases leaves' with
    | nil => rfl
    | cons p P =>
      rw [Spec.contents, List.flatMap_cons, List.append_eq_nil_iff] at hc0
      exact absurd hc0.1 (R.ordered.entries p (List.mem_cons_self ..)).2.2
  have hrows := R.rows
  have hends := R.ends
  rw [hl0] at hrows hends
  have hnone := ends_none bs' hrows
  have hg : turn g (l, root) = [] := by
    cases hT : turn g (l, root) with
    | nil => rfl
    | cons r _ =>
      exfalso
      rw [hends, hT] at hnone
      exact absurd (hnone (up r) (by simp)) (by simp [up])
  rw [hg] at hends
  have hnum := numbers_nil bs' hrows hends
  obtain ⟨ms, h1, h2⟩ := R.free ns hfree hns
  rw [hl0, hnum, List.nil_append] at h2
  refine ⟨f', ms, by unfold deleteEntry; rw [hd]; rfl, h1, h2, h2.mem_iff.mpr ?_⟩
  have htop := ht.top
  cases bs with
  | nil =>
    have : root ∈ leaves.map (·.no) := by
      rw [Spec.ends, List.map_map] at htop
      show root ∈ leaves.map (·.no)
      have e : leaves.map (·.no) = [root] := htop
      rw [e]; exact List.mem_cons_self ..
    simpa [Spec.numbers] using this
  | cons row bs =>
    have e : row.map (·.no) = [root] := by rw [Spec.ends, List.map_map] at htop; exact htop
    rw [numbers_cons, e]
    exact List.mem_cons_self ..

/-- C76, a disagreement: after the last entry of an index of one page was removed, and when there
were no free pages before, the next addition to the index is undefined: on a page without entries
it looks in front of the first one, which with keys of more than four bytes is outside of the page.
The file is otherwise sound. -/
theorem insert_after_last_removed_ub (c : Conf) (f : Bytes) (root num : Nat) (key : Bytes) (fuel : Nat) (ht : Spec.Tree c f root [] [⟨root, [⟨num, key⟩]⟩])
    (hfree : Spec.Free c f []) (hfwd : c.fwd = true) (_ : 4 < c.P.len) :
    ∃ f', deleteEntry c (fuel + 1) f (root * c.P.pagesize) num key = .ok (some f') ∧
      ∀ junk fuel' start num' key', writeEntry c junk (fuel' + 1) start f' (root * c.P.pagesize) num' key' = .ub := by
  have hk : key.length = c.P.len := ((ht.ordered.entries _ (List.mem_cons_self ..)).1 ⟨num, key⟩ (List.mem_cons_self ..)).1
  obtain ⟨f', ms, h1, h2, h3, _⟩ := delete_last_entry_frees_root c f root [] _ num key (fuel + 1) [] ht hk (by simp) (by simp [Spec.contents]) hfwd hfree
    (fun _ h => absurd h List.not_mem_nil)
  refine ⟨f', h1, ?_⟩
  have hms : ms = [root] := List.perm_singleton.mp h3
  rw [hms] at h2
  obtain ⟨n, _, rfl, _, hin, next, hat, hnx⟩ := h2
  have hnx' : next = 0 := hnx
  subst hnx'
  obtain ⟨pre, post, e1, e2, _⟩ := hat
  cases List.length_eq_zero_iff.mp e2
  intro junk fuel' start num' key'
  unfold writeEntry
  rw [writeAt, getData_page hin, Outcome.ok_bind, e1]
  have r1 : rd ([] ++ (le 4 0 ++ post)) 0 2 = .ok 0 := by
    unfold rd; rw [if_pos (by simp [le])]; rfl
  have r2 : rd ([] ++ (le 4 0 ++ post)) 2 2 = .ok 0 := by
    unfold rd; rw [if_pos (by simp [le])]; rfl
  rw [r1, Outcome.ok_bind, if_neg (by decide), r2, Outcome.ok_bind]
  rfl

/-- An index of one page with one entry, with keys of five bytes. -/
def loneFile : Bytes := firstPage 1 5 ++ setHdr (packed [⟨3, [1, 2, 3, 4, 5]⟩] 5) 2 lastPage lastPage

theorem lone_tree : Spec.Tree (confOf 5) loneFile 1 [] [⟨1, [⟨3, [1, 2, 3, 4, 5]⟩]⟩] := by
  have hs : Spec.Sizes (confOf 5) := ⟨by decide, by decide⟩
  have hE : Spec.Entries 5 [⟨3, [1, 2, 3, 4, 5]⟩] := by intro e he; fin_cases he; decide
  refine ⟨hs, ⟨?_, trivial⟩, by decide, ⟨by decide, ?_, by decide +kernel⟩, ?_, List.pairwise_singleton _ _⟩
  · exact small_leaf hs (by decide +kernel) hE (by decide) (by unfold Spec.Fits; decide +kernel) (by unfold Spec.Readable; decide +kernel) (by decide)
      (by decide +kernel) (by decide) (by decide)
  · intro n hn
    have hl : loneFile.length = 128 := by decide +kernel
    cases List.mem_singleton.mp hn
    rw [hl]
    decide
  · intro p hp
    cases List.mem_singleton.mp hp
    exact ⟨hE, trivial, by decide⟩

/-- `insert_after_last_removed_ub`, and with it `delete_last_entry_frees_root`, apply. -/
example : ∃ f', deleteEntry (confOf 5) 3 loneFile 64 3 [1, 2, 3, 4, 5] = .ok (some f') ∧
    ∀ junk fuel' start num' key', writeEntry (confOf 5) junk (fuel' + 1) start f' 64 num' key' = .ub :=
  insert_after_last_removed_ub (confOf 5) loneFile 1 3 _ 2 lone_tree ⟨0, at_of (by decide +kernel) (by decide) (by decide +kernel), rfl⟩ rfl (by decide)

/-- A key that goes on from one leaf to the next. -/
def twiceFile : Bytes := firstPage 1 2 ++ branch [(⟨4, [5, 9]⟩, 2), (⟨2, [7, 0]⟩, 3)] ++ setHdr (packed leafA) 2 lastPage 3 ++
  setHdr (packed [⟨8, [5, 9]⟩, ⟨2, [7, 0]⟩]) 2 2 lastPage

/-- C75, a disagreement: an entry whose key the leaf before it also ends with is not removed; the
file stays as it is, and a walk still gives the entry. -/
theorem delete_misses_repeated_key : walk ⟨twiceFile, 64, true, 16, 10⟩ 7 = .ok (some [1, 4, 8, 2]) ∧
    deleteEntry smallConf 5 twiceFile 64 8 [5, 9] = .ok (some twiceFile) := by
  constructor <;> decide +kernel

/-- A leaf without room for another entry. -/
def fullLeaf : List Entry := [⟨1, [1, 9]⟩, ⟨2, [3, 9]⟩, ⟨3, [5, 9]⟩, ⟨4, [7, 9]⟩, ⟨5, [9, 9]⟩, ⟨6, [11, 9]⟩, ⟨7, [13, 9]⟩, ⟨8, [15, 9]⟩]

/-- Three leaves, the first without room. -/
def threeFile : Bytes := firstPage 1 2 ++ branch [(⟨8, [15, 9]⟩, 2), (⟨20, [27, 0]⟩, 3), (⟨21, [28, 0]⟩, 4)] ++ setHdr (packed fullLeaf) 2 lastPage 3 ++
  setHdr (packed [⟨20, [27, 0]⟩]) 2 2 4 ++ setHdr (packed [⟨21, [28, 0]⟩]) 2 3 lastPage

/-- What adding an entry to the full leaf makes of the file. -/
def threeSplit : Bytes :=
  match writeEntry smallConf (List.replicate 64 0) 5 16 threeFile 64 30 [4, 9] with
  | .ok (some (f, _)) => f
  | _ => []

/-- C76, a disagreement: when a leaf is split, the page above it moves its later entries over one
another instead of out of the way, and goes on counting as many as before. Here the entries for the
second and third leaf are lost. The walk, which goes along the leaves, does not show it, but entries
on those leaves can no longer be removed. -/
theorem split_loses_leaves :
    deleteEntry smallConf 5 threeFile 64 20 [27, 0] ≠ .ok (some threeFile) ∧
    writeEntry smallConf (List.replicate 64 0) 5 16 threeFile 64 30 [4, 9] = .ok (some (threeSplit, 64)) ∧
    walk ⟨threeSplit, 64, true, 16, 20⟩ 9 = .ok (some [1, 2, 30, 3, 4, 5, 6, 7, 8, 20, 21]) ∧
    deleteEntry smallConf 5 threeSplit 64 20 [27, 0] = .ok (some threeSplit) ∧
    deleteEntry smallConf 5 threeSplit 64 21 [28, 0] = .ok (some threeSplit) := by
  refine ⟨by decide +kernel, by decide +kernel, by decide +kernel, by decide +kernel, by decide +kernel⟩

/-- Five leaves, as many as a root page of 64 bytes has room for, the first without room. -/
def fiveFile : Bytes := firstPage 1 2 ++ branch [(⟨8, [15, 9]⟩, 2), (⟨20, [27, 0]⟩, 3), (⟨21, [28, 0]⟩, 4), (⟨22, [29, 0]⟩, 5), (⟨23, [30, 0]⟩, 6)] ++
  setHdr (packed fullLeaf) 2 lastPage 3 ++ setHdr (packed [⟨20, [27, 0]⟩]) 2 2 4 ++ setHdr (packed [⟨21, [28, 0]⟩]) 2 3 5 ++
  setHdr (packed [⟨22, [29, 0]⟩]) 2 4 6 ++ setHdr (packed [⟨23, [30, 0]⟩]) 2 5 lastPage

/-- C76, a disagreement: when a leaf is split and the page above it is full, more entries are
collected than their buffer has room for. The same file takes an entry where a leaf has room. -/
theorem split_below_full_page_ub :
    walk ⟨fiveFile, 64, true, 16, 20⟩ 9 = .ok (some [1, 2, 3, 4, 5, 6, 7, 8, 20, 21, 22, 23]) ∧
    writeEntry smallConf (List.replicate 64 0) 5 16 fiveFile 64 30 [4, 9] = .ub ∧
    (∃ f, writeEntry smallConf (List.replicate 64 0) 5 16 fiveFile 64 30 [26, 0] = .ok (some (f, 64))) := by
  refine ⟨by decide +kernel, by decide +kernel, ?_⟩
  exact ⟨match writeEntry smallConf (List.replicate 64 0) 5 16 fiveFile 64 30 [26, 0] with
    | .ok (some (f, _)) => f
    | _ => [], by decide +kernel⟩

/-- C75, a disagreement: when a leaf loses its only entry and more than one entry comes after it in
the page above, overlapping bytes are copied, which is undefined where copies do not go in order. -/
theorem delete_overlapping_ub : deleteEntry { smallConf with fwd := false } 5 fiveFile 64 20 [27, 0] = .ub := by decide +kernel

end Verif.Index
