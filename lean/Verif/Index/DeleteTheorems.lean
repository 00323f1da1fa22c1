import Verif.Index.EditTheorems

/-! # Property theorems: removing an entry from a leaf page (C61) -/

namespace Verif.Index
open Verif

theorem findEntry_none {num : Nat} {key : Bytes} {es : List Entry} (h : (⟨num, key⟩ : Entry) ∉ es) : findEntry num key es = none := by
  induction es with
  | nil => rfl
  | cons e es ih =>
    have h1 : ¬ (key = e.key ∧ e.num = num) := by
      rintro ⟨rfl, rfl⟩
      exact h (List.mem_cons_self ..)
    rw [findEntry, if_neg h1, ih (fun hh => h (List.mem_cons_of_mem _ hh))]
    rfl

theorem findEntry_some {num : Nat} {key : Bytes} {es : List Entry} (h : (⟨num, key⟩ : Entry) ∈ es) :
    ∃ i, findEntry num key es = some i ∧ i < es.length ∧ Spec.Removed ⟨num, key⟩ es (es.take i ++ es.drop (i + 1)) := by
  induction es with
  | nil => cases h
  | cons e es ih =>
    by_cases he : key = e.key ∧ e.num = num
    · refine ⟨0, by rw [findEntry, if_pos he], Nat.succ_pos _, [], es, ?_, rfl, fun hh => (by cases hh)⟩
      obtain ⟨rfl, rfl⟩ := he
      rfl
    · rcases List.mem_cons.mp h with rfl | h
      · exact absurd ⟨rfl, rfl⟩ he
      · obtain ⟨i, h1, h2, a, b, h3, h4, h5⟩ := ih h
        refine ⟨i + 1, by rw [findEntry, if_neg he, h1]; rfl, Nat.succ_lt_succ h2, e :: a, b, by rw [h3]; rfl, ?_, ?_⟩
        · rw [List.take_succ_cons, List.drop_succ_cons, List.cons_append, h4]; rfl
        · intro hh
          rcases List.mem_cons.mp hh with rfl | hh
          · exact he ⟨rfl, rfl⟩
          · exact h5 hh

theorem removed_sorted {primary : Bool} {e : Entry} {old new : List Entry} (h : Spec.Removed e old new) (hs : Spec.Sorted primary old) :
    Spec.Sorted primary new := by
  obtain ⟨a, b, rfl, rfl, h3⟩ := h
  clear h3
  induction a with
  | nil => exact sorted_tail hs
  | cons x a ih =>
    have hxs := sorted_first hs
    refine sorted_of (ih (sorted_tail hs)) ?_
    intro y hy
    apply hxs y
    rcases List.mem_append.mp hy with hy | hy
    · exact List.mem_append_left _ hy
    · exact List.mem_append_right _ (List.mem_cons_of_mem _ hy)

theorem removed_mem {e : Entry} {old new : List Entry} (h : Spec.Removed e old new) : ∀ x ∈ new, x ∈ old := by
  obtain ⟨a, b, rfl, rfl, _⟩ := h
  intro x hx
  rcases List.mem_append.mp hx with hx | hx
  · exact List.mem_append_left _ hx
  · exact List.mem_append_right _ (List.mem_cons_of_mem _ hx)

/-- There is only one such list. -/
theorem removed_erase {e : Entry} {old new : List Entry} (h : Spec.Removed e old new) : new = old.erase e := by
  obtain ⟨a, b, rfl, rfl, h3⟩ := h
  rw [List.erase_append_right _ h3, List.erase_cons_head]

/-- C61. Removing an entry that the page does not have changes nothing. -/
theorem leaf_delete_absent (P : Params) (page : Bytes) (es : List Entry) (num : Nat) (key : Bytes)
    (h0 : 0 < P.len) (hpl : 12 ≤ page.length) (hu : unpack P.len page = .ok es) (hno : (⟨num, key⟩ : Entry) ∉ es) :
    leafDelete P page num key = .ok .absent := by
  obtain ⟨fl, hf1, hf2⟩ := unpack_flags h0 hu
  obtain ⟨prev, hprev⟩ : ∃ n, rd page 4 4 = .ok n := ⟨_, if_pos (by omega)⟩
  obtain ⟨next, hnext⟩ : ∃ n, rd page 8 4 = .ok n := ⟨_, if_pos (by omega)⟩
  unfold leafDelete
  rw [hf1, Outcome.ok_bind, hprev, Outcome.ok_bind, hnext, Outcome.ok_bind, hu, Outcome.ok_bind, findEntry_none hno]

/-- C61. Removing an entry takes exactly that one out of the page. If it was the only one
the page is reported to be empty. Otherwise, if the others fit (as they always should, but see
`delete_wrecks_page`), the page is rewritten with them, with its flags and links. Excluded
are pages so full that the unpacker reads past their end. -/
theorem leaf_delete_partial (P : Params) (page : Bytes) (es : List Entry) (num : Nat) (key : Bytes)
    (h0 : 0 < P.len) (hlen : P.len < 2 ^ 15) (hps : 30 ≤ P.pagesize) (hps' : P.pagesize ≤ 65536) (hpl : page.length = P.pagesize)
    (hu : unpack P.len page = .ok es) (hes : Spec.Entries P.len es) (hs : Spec.Sorted P.primary es) (hin : (⟨num, key⟩ : Entry) ∈ es) :
    ∃ new, Spec.Removed ⟨num, key⟩ es new ∧ Spec.Sorted P.primary new ∧
      (new = [] → leafDelete P page num key = .ok .emptied) ∧
      (new ≠ [] → ∀ w, Spec.IsWidth P.len new w →
        (Spec.Fits P.pagesize P.len new w → ∃ page' last, leafDelete P page num key = .ok (.kept (some page') last) ∧
          page'.length = P.pagesize ∧ Spec.header page' = Spec.header page ∧
          (Spec.Readable P.pagesize new w → unpack P.len page' = .ok new) ∧ (last = none ∨ last = new.getLast?)) ∧
        (¬ Spec.Fits P.pagesize P.len new w → ∃ last, leafDelete P page num key = .ok (.kept none last))) := by
  obtain ⟨fl, hf1, hf2⟩ := unpack_flags h0 hu
  obtain ⟨prev, hprev⟩ : ∃ n, rd page 4 4 = .ok n := ⟨_, if_pos (by omega)⟩
  obtain ⟨next, hnext⟩ : ∃ n, rd page 8 4 = .ok n := ⟨_, if_pos (by omega)⟩
  obtain ⟨i, h1, h2, h3⟩ := findEntry_some hin
  have hsn := removed_sorted h3 hs
  have hesn : Spec.Entries P.len (es.take i ++ es.drop (i + 1)) := fun x hx => hes x (removed_mem h3 x hx)
  obtain ⟨new, hnewdef⟩ : ∃ new, new = es.take i ++ es.drop (i + 1) := ⟨_, rfl⟩
  have hunf : leafDelete P page num key = if new = [] then .ok .emptied else
      (pack P.primary P.len P.pagesize ((es.getLast?.map entryBytes).getD []) new page >>= fun r =>
        .ok (.kept (r.map (fun p => setHdr p fl prev next)) (if i = es.length - 1 then new.getLast? else none))) := by
    unfold leafDelete
    rw [hf1, Outcome.ok_bind, hprev, Outcome.ok_bind, hnext, Outcome.ok_bind, hu, Outcome.ok_bind, h1, hnewdef]
  rw [← hnewdef] at h3 hsn hesn
  refine ⟨new, h3, hsn, fun hn => by rw [hunf, if_pos hn], ?_⟩
  intro hne w hw
  have hrest : ((es.getLast?.map entryBytes).getD []) ≠ [] := by
    cases hg : es.getLast? with
    | none => rw [List.getLast?_eq_none_iff] at hg; rw [hg] at h2; cases h2
    | some x =>
      intro hh
      have := congrArg List.length hh
      rw [Option.map_some, Option.getD_some, entryBytes, List.length_append, le_length, List.length_nil] at this
      omega
  obtain ⟨q1, q2⟩ := pack_sorted P.primary P.len P.pagesize ((es.getLast?.map entryBytes).getD []) new page h0 hlen hesn hne hsn (.inl hrest) w hw
  rw [if_neg hne] at hunf
  constructor
  · intro hf
    obtain ⟨p, hpk⟩ := q1 hf
    obtain ⟨hl1, hl2⟩ := unpack_setHdr P.primary P.len P.pagesize _ new page p fl prev next h0 hlen hesn hne hps hps' hpl w hw hpk
      (rd_ok hf1).2.2 hf2
    have hpl2 := (pack_keeps_links _ _ _ _ _ _ _ hps hpl hpk).1
    refine ⟨setHdr p fl prev next, if i = es.length - 1 then new.getLast? else none, by rw [hunf, hpk]; rfl, hl1,
      setHdr_header (by omega) hf1 hprev hnext, hl2, ?_⟩
    split
    · exact .inr rfl
    · exact .inl rfl
  · intro hf
    have hpk := q2 (by unfold Spec.Fits at hf; omega)
    exact ⟨_, by rw [hunf, hpk]; rfl⟩

/-! ## When the remaining entries fit -/

/-- Prefixes shared with a common neighbour. -/
theorem common_three (x e p : Bytes) : min (common e p) (common x e) ≤ common x p := by
  induction x generalizing e p with
  | nil => simp [common]
  | cons a x ih =>
    cases e with
    | nil => simp [common]
    | cons b e =>
      cases p with
      | nil => simp [common]
      | cons c p =>
        unfold common
        by_cases h1 : b = c
        · by_cases h2 : a = b
          · rw [if_pos h1, if_pos h2, if_pos (h2.trans h1)]
            have := ih e p
            omega
          · rw [if_neg h2]; omega
        · rw [if_neg h1]; omega

theorem sharedWith_three (x e : Bytes) (p : Option Bytes) : min (Spec.sharedWith p e) (Spec.shared x e) ≤ Spec.sharedWith p x := by
  cases p with
  | none => exact Nat.min_le_left _ _
  | some p =>
    simp only [Spec.sharedWith, ← common_eq_shared]
    exact common_three x e p

/-- Key bytes after a removal: no more than before, if the zeros at the end of the removed key
do not overlap what the next key shares with it. -/
theorem stored_removed {len : Nat} (a b : List Entry) (e : Entry) (p : Option Bytes)
    (h : ∀ x b', b = x :: b' → Spec.zeroTail e.key + Spec.shared x.key e.key ≤ len) :
    Spec.stored len p (a ++ b) ≤ Spec.stored len p (a ++ e :: b) := by
  induction a generalizing p with
  | nil =>
    rw [List.nil_append, List.nil_append]
    cases b with
    | nil => exact Nat.zero_le _
    | cons x b =>
      have h1 := h x b rfl
      have h2 := sharedWith_three x.key e.key p
      simp only [Spec.stored]
      have h3 : Spec.sharedWith (some e.key) x.key = Spec.shared x.key e.key := rfl
      rw [h3]
      omega
  | cons y a ih =>
    rw [List.cons_append, List.cons_append, Spec.stored, Spec.stored]
    have := ih (some y.key)
    omega

theorem isBits_mono {m n a b : Nat} (h : m ≤ n) (ha : Spec.IsBits m a) (hb : Spec.IsBits n b) : a ≤ b :=
  ha.2 b (Nat.lt_of_le_of_lt h hb.1)

theorem isWidth_mono {len : Nat} {a b : List Entry} {v w : Nat} (hs : ∀ x ∈ a, x ∈ b) (hv : Spec.IsWidth len a v) (hw : Spec.IsWidth len b w) : v ≤ w := by
  obtain ⟨a1, a2, m, h1, h2, h3, h4, rfl⟩ := hv
  obtain ⟨c1, c2, n, g1, g2, g3, g4, rfl⟩ := hw
  have hmn : m ≤ n := by
    rcases h4 with rfl | ⟨e, he, rfl⟩
    · exact Nat.zero_le _
    · exact g3 e (hs e he)
  have := isBits_mono hmn h2 g2
  have := isBits_unique h1 g1
  omega

/-- C61. The entries that remain fit the page the others came from, if the removed key is the
last one or ends in no zeros, or the zeros do not overlap the next key's shared prefix. -/
theorem delete_fits (pagesize len : Nat) (es new : List Entry) (e : Entry) (v w : Nat) (hr : Spec.Removed e es new)
    (hf : Spec.Fits pagesize len es w) (hw : Spec.IsWidth len es w) (hv : Spec.IsWidth len new v)
    (h : ∀ a x b, es = a ++ e :: x :: b → Spec.zeroTail e.key + Spec.shared x.key e.key ≤ len) : Spec.Fits pagesize len new v := by
  have hsub := removed_mem hr
  obtain ⟨a, b, rfl, rfl, _⟩ := hr
  have h1 := stored_removed (len := len) a b e none (fun x b' hb => h a x b' (by rw [hb]))
  have h2 := isWidth_mono hsub hv hw
  unfold Spec.Fits at *
  have h3 : (a ++ b).length * v ≤ (a ++ e :: b).length * w := by
    apply Nat.mul_le_mul _ h2
    simp only [List.length_append, List.length_cons]
    omega
  omega

/-! ## Disagreements -/

/-- Keys of a hundred bytes that have nothing in common but the first byte. -/
def wreckKeys : List Entry :=
  (List.range 39).map (fun i => (⟨i, 0 :: UInt8.ofNat (i + 1) :: List.replicate 98 7⟩ : Entry)) ++
    [⟨39, 1 :: List.replicate 99 0⟩, ⟨40, 1 :: List.replicate 98 0 ++ [5]⟩]

def wreckNew : List Entry :=
  (List.range 39).map (fun i => (⟨i, 0 :: UInt8.ofNat (i + 1) :: List.replicate 98 7⟩ : Entry)) ++
    [⟨40, 1 :: List.replicate 98 0 ++ [5]⟩]

instance decSorted (primary : Bool) : (es : List Entry) → Decidable (Spec.Sorted primary es)
  | [] => .isTrue trivial
  | [_] => .isTrue trivial
  | a :: b :: es =>
    have := decSorted primary (b :: es)
    inferInstanceAs (Decidable ((Spec.Before a.key b.key ∨ (primary = false ∧ a.key = b.key)) ∧ Spec.Sorted primary (b :: es)))

theorem wreck_sorted : Spec.Sorted true wreckKeys := by decide +kernel

theorem wreck_entries : Spec.Entries 100 wreckKeys := by
  unfold Spec.Entries
  decide +kernel

theorem wreck_width : Spec.IsWidth 100 wreckKeys 3 := by
  have h := recBytes_isWidth 100 (by decide) wreckKeys wreck_entries
  have : recBytes 100 wreckKeys = 3 := by decide +kernel
  rwa [this] at h

theorem wreck_stored : wreckKeys.length * 3 + Spec.stored 100 none wreckKeys = 3987 := by decide +kernel

theorem wreckNew_width : Spec.IsWidth 100 wreckNew 3 := by
  have h := recBytes_isWidth 100 (by decide) wreckNew (by unfold Spec.Entries; decide +kernel)
  have : recBytes 100 wreckNew = 3 := by decide +kernel
  rwa [this] at h

theorem wreckNew_stored : wreckNew.length * 3 + Spec.stored 100 none wreckNew = 4082 := by decide +kernel

/-- C61, a disagreement: there is a page of 4096 bytes with keys in order from which an entry
cannot be removed. The next key shared a long prefix with the removed one and now has to be
stored almost in full; the entries that remain do not fit, the packer says so, and the page,
half overwritten, is written all the same. -/
theorem delete_wrecks_page (page0 : Bytes) (hp : page0.length = 4096) : ∃ page last,
    pack true 100 4096 [] wreckKeys page0 = .ok (some page) ∧ unpack 100 page = .ok wreckKeys ∧ Spec.Sorted true wreckKeys ∧
    (⟨39, 1 :: List.replicate 99 0⟩ : Entry) ∈ wreckKeys ∧
    leafDelete ⟨true, 100, 4096⟩ page 39 (1 :: List.replicate 99 0) = .ok (.kept none last) := by
  have hst := wreck_stored
  have hnst := wreckNew_stored
  have hne : wreckKeys ≠ [] := by decide +kernel
  have hlenk : wreckKeys.length = 41 := by decide +kernel
  have hmem : (⟨39, 1 :: List.replicate 99 0⟩ : Entry) ∈ wreckKeys := by decide +kernel
  have hnd : wreckKeys.Nodup := by decide +kernel
  obtain ⟨q1, _⟩ := pack_sorted true 100 4096 [] wreckKeys page0 (by decide) (by decide) wreck_entries hne wreck_sorted
    (.inr (primary_end_fine _ wreck_sorted)) 3 wreck_width
  obtain ⟨page, hpk⟩ := q1 (by omega)
  have hu := unpack_pack_partial true 100 4096 [] wreckKeys page0 page (by decide) (by decide) wreck_entries hne (by decide) (by decide) hp 3
    wreck_width hpk
  rw [if_pos (by omega)] at hu
  have hl := (pack_keeps_links _ _ _ _ _ _ _ (by decide) hp hpk).1
  obtain ⟨new, h1, h2, h3, h4⟩ := leaf_delete_partial ⟨true, 100, 4096⟩ page wreckKeys 39 (1 :: List.replicate 99 0) (by decide) (by decide)
    (by decide) (by decide) hl hu wreck_entries wreck_sorted hmem
  have hnew : new = wreckNew := by
    have h5 : Spec.Removed ⟨39, 1 :: List.replicate 99 0⟩ wreckKeys wreckNew :=
      ⟨(List.range 39).map (fun i => (⟨i, 0 :: UInt8.ofNat (i + 1) :: List.replicate 98 7⟩ : Entry)), [⟨40, 1 :: List.replicate 98 0 ++ [5]⟩],
        rfl, rfl, by decide +kernel⟩
    rw [removed_erase h1, removed_erase h5]
  subst hnew
  obtain ⟨last, h5⟩ := (h4 (by decide +kernel) 3 wreckNew_width).2 (by unfold Spec.Fits; show ¬ (wreckNew.length * 3 + Spec.stored 100 none wreckNew ≤ 4096 - 30); omega)
  exact ⟨page, last, hpk, hu, wreck_sorted, hmem, h5⟩

/-- A leaf page with keys of two bytes. -/
def exPage : Bytes := (match pack false 2 4096 [] [⟨1, [5, 6]⟩, ⟨4, [5, 9]⟩, ⟨2, [7, 0]⟩] (le 2 3 ++ List.replicate 4094 255) with
  | .ok (some p) => setHdr p 3 4294967295 77
  | _ => [])

def exParams : Params := ⟨false, 2, 4096⟩

/-- The hypotheses of the theorems, and what happens to such a page. -/
theorem exPage_unpack : unpack 2 exPage = .ok [⟨1, [5, 6]⟩, ⟨4, [5, 9]⟩, ⟨2, [7, 0]⟩] ∧ exPage.length = 4096 := by decide +kernel

example : Spec.Sorted false [⟨1, [5, 6]⟩, ⟨4, [5, 9]⟩, ⟨2, [7, 0]⟩] ∧ Spec.Entries 2 [⟨1, [5, 6]⟩, ⟨4, [5, 9]⟩, ⟨2, [7, 0]⟩] ∧
    Spec.EndsApart [⟨1, [5, 6]⟩, ⟨8, [5, 9]⟩, ⟨4, [5, 9]⟩, ⟨2, [7, 0]⟩] := by
  refine ⟨by decide, by unfold Spec.Entries; decide, ?_⟩
  intro pre a b h hab
  match pre, h with
  | [_, _], h => cases h; cases hab
  | [], h => cases h
  | [_], h => cases h
  | _ :: _ :: _ :: [], h => cases h
  | _ :: _ :: _ :: _ :: [], h => cases h
  | _ :: _ :: _ :: _ :: _ :: _, h => cases h

/-- The page after an insertion that fits. -/
def inserted (P : Params) (page : Bytes) (num : Nat) (key : Bytes) : Outcome Bytes := do
  match (← leafWrite P page page num key) with
  | .fits p _ => .ok p
  | .split .. => .throw

/-- The page after a removal. -/
def deleted (P : Params) (page : Bytes) (num : Nat) (key : Bytes) : Outcome Bytes := do
  match (← leafDelete P page num key) with
  | .kept (some p) _ => .ok p
  | _ => .throw

/-- Inserting a duplicate key puts it before the first equal one; deleting takes it out. -/
example : (inserted exParams exPage 8 [5, 9] >>= unpack 2) = .ok [⟨1, [5, 6]⟩, ⟨8, [5, 9]⟩, ⟨4, [5, 9]⟩, ⟨2, [7, 0]⟩] ∧
    (inserted exParams exPage 8 [5, 9] >>= fun p => rd p 8 4) = .ok 77 ∧
    (inserted exParams exPage 8 [5, 9] >>= fun p => deleted exParams p 4 [5, 9] >>= unpack 2) =
      .ok [⟨1, [5, 6]⟩, ⟨8, [5, 9]⟩, ⟨2, [7, 0]⟩] := by decide +kernel

/-- C60, a disagreement: inserting a key equal to the last one of the page reads past the
buffer of the new entries. -/
theorem insert_equal_last_ub : leafWrite exParams exPage exPage 8 [7, 0] = .ub := by decide +kernel

/-- C60, a disagreement: in an index with equal keys, inserting an entry that is already there
is noticed only when it is the first with its key. -/
theorem same_entry_accepted :
    (inserted exParams exPage 8 [5, 9] >>= fun p => inserted exParams p 4 [5, 9] >>= unpack 2) =
      .ok [⟨1, [5, 6]⟩, ⟨4, [5, 9]⟩, ⟨8, [5, 9]⟩, ⟨4, [5, 9]⟩, ⟨2, [7, 0]⟩] ∧
    inserted exParams exPage 4 [5, 9] = .throw := by decide +kernel

/-! ## A new root -/

theorem leafNums_length {page : Bytes} {m : Nat} {rlen : Int} (n : Nat) (pos : Int) (l : List Nat) (h : leafNums page m rlen n pos = .ok l) : l.length = n := by
  induction n generalizing pos l with
  | zero => cases h; rfl
  | succ n ih =>
    rw [leafNums] at h
    obtain ⟨w, _, h2⟩ := bind_ok h
    obtain ⟨r, h3, h4⟩ := bind_ok h2
    cases h4
    rw [List.length_cons, ih _ _ h3]

/-- C60, a disagreement: when the root of an index is split, the new root above the two halves
is marked as a leaf. A walk over the index then takes it for the only leaf, and the list it
makes, if it makes one, has two numbers, however many entries the two halves have. -/
theorem split_root_hides_entries (b : Base) (len : Nat) (last1 last2 : Entry) (root root' block2 : Nat)
    (hh : Spec.Header b root' len) (hp : Spec.PageAt b root' (newRoot b.v838 b.pagesize last1 last2 root block2)) (f : Nat) (l : List Nat)
    (h : walk b f = .ok (some l)) : l.length = 2 := by
  generalize hpg : newRoot b.v838 b.pagesize last1 last2 root block2 = page at hp
  have hfl : Spec.At page 0 1 3 := ⟨[], 0 :: _, by rw [← hpg]; unfold newRoot; simp only [List.append_assoc]; rfl, rfl, by decide⟩
  have hc : Spec.At page 2 2 2 := ⟨le 2 3, _, by rw [← hpg]; unfold newRoot; simp only [List.append_assoc]; rfl, rfl, by decide⟩
  have hn : Spec.At page 8 4 4294967295 :=
    ⟨le 2 3 ++ le 2 2 ++ le 4 4294967295, _, by rw [← hpg]; unfold newRoot; simp only [List.append_assoc]; rfl, rfl, by decide⟩
  rw [walk_start hh hp, rd_at hc, Outcome.ok_bind, if_neg (by decide)] at h
  cases f with
  | zero => rw [descend, Outcome.ok_bind] at h; cases h
  | succ f =>
    rw [descend, rd_at hfl, Outcome.ok_bind, if_pos (by decide), Outcome.ok_bind] at h
    dsimp only at h
    rw [chain, rd_at hc, Outcome.ok_bind, rd_at hn, Outcome.ok_bind] at h
    obtain ⟨m, _, h2⟩ := bind_ok h
    obtain ⟨rl, _, h3⟩ := bind_ok h2
    obtain ⟨nums, h4, h5⟩ := bind_ok h3
    have h6 := leafNums_length _ _ _ h4
    split at h5
    · cases h5
    · rw [if_pos rfl, List.nil_append] at h5
      cases h5
      exact h6

/-- C60, a disagreement: in format 8.3.8, where blocks go by their numbers, the start of the
index gets the byte offset of the new root. -/
theorem new_root_offset_as_number (b : Base) (n : Nat) (h8 : b.v838 = true) (hps : 1 < b.pagesize) (hn : 0 < n) (hlt : n * b.pagesize < 2 ^ 32) :
    ofLe (newRootWord (b.offset n)) ≠ n := by
  unfold newRootWord
  have ho : b.offset n = n * b.pagesize := by unfold Base.offset; rw [if_pos h8]
  rw [ho, ofLe_le, Nat.mod_eq_of_lt hlt]
  have : n * 1 < n * b.pagesize := Nat.mul_lt_mul_of_pos_left hps hn
  omega

end Verif.Index
