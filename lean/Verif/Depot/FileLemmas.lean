import Verif.Depot.FileSpec
import Verif.Depot.Theorems
import Verif.Config.WholeTheorems
import Verif.Nested.Flush
import Verif.Tree.Theorems
import Verif.Tree.ClassTheorems
import Verif.Guid.Theorems
import Mathlib.Order.Lattice
import Mathlib.Data.List.Lex

/-! # Lemmas: the file a version of a depot is saved into -/

namespace Verif.Depot.File
open Verif Verif.Container Verif.Container.Spec Verif.Unicode Verif.Unicode.Spec Spec
open Verif.Config.Whole (name_codes packs_plain cost_new)
open Verif.Config.Whole.Spec (codes SameName)

/-! ## Maps -/

theorem codes_inj {a b : Str} (h : codes a = codes b) : a = b := by
  unfold codes at h
  exact List.map_injective_iff.2 (fun x y e => Char.ext (UInt32.toNat_inj.1 e)) h

theorem before_iff (a b : Str) : before a b = true ↔ codes a < codes b := by
  induction a generalizing b with
  | nil => cases b <;> simp [before, codes]
  | cons x a ih =>
    cases b with
    | nil => simp [before, codes]
    | cons y b =>
      rw [show codes (x :: a) = x.toNat :: codes a from rfl, show codes (y :: b) = y.toNat :: codes b from rfl, List.cons_lt_cons_iff, ← ih]
      show (if x.toNat < y.toNat then true else if y.toNat < x.toNat then false else before a b) = true ↔ _
      split
      · simp [*]
      · split
        · rename_i h1 h2
          simp only [Bool.false_eq_true, false_iff, not_or, not_and]
          exact ⟨h1, fun e => by omega⟩
        · have : x.toNat = y.toNat := by omega
          simp [*]

theorem put_head {m : List (Str × α)} {k : Str} {v : α} {p : Str × α} (h : p ∈ put m k v) : p = (k, v) ∨ p ∈ m := by
  induction m with
  | nil => simpa [put] using h
  | cons q m ih =>
    obtain ⟨a, w⟩ := q
    unfold put at h
    split at h
    · rename_i e
      subst e
      rcases List.mem_cons.1 h with rfl | h
      · exact Or.inl rfl
      · exact Or.inr (by simp [h])
    · split at h
      · rcases List.mem_cons.1 h with rfl | h
        · exact Or.inl rfl
        · exact Or.inr h
      · rcases List.mem_cons.1 h with rfl | h
        · exact Or.inr (by simp)
        · rcases ih h with h | h
          · exact Or.inl h
          · exact Or.inr (by simp [h])

theorem put_sorted {m : List (Str × α)} (hs : Sorted m) (k : Str) (v : α) : Sorted (put m k v) := by
  induction m with
  | nil => simp [put, Sorted]
  | cons q m ih =>
    obtain ⟨a, w⟩ := q
    unfold Sorted at hs
    rw [List.pairwise_cons] at hs
    unfold put
    split
    · exact List.pairwise_cons.2 ⟨hs.1, hs.2⟩
    · rename_i hne
      split
      · rename_i hb
        rw [before_iff] at hb
        refine List.pairwise_cons.2 ⟨fun p hp => ?_, List.pairwise_cons.2 hs⟩
        rcases List.mem_cons.1 hp with rfl | hp
        · exact hb
        · exact List.lt_trans hb (hs.1 p hp)
      · rename_i hb
        rw [before_iff] at hb
        refine List.pairwise_cons.2 ⟨fun p hp => ?_, ih hs.2⟩
        rcases put_head hp with rfl | hp
        · rcases lt_trichotomy (codes a) (codes k) with h | h | h
          · exact h
          · exact absurd (codes_inj h).symm hne
          · exact absurd h hb
        · exact hs.1 p hp

theorem mem_put {m : List (Str × α)} (hs : Sorted m) (k : Str) (v : α) (p : Str × α) :
    p ∈ put m k v ↔ p = (k, v) ∨ (p ∈ m ∧ p.1 ≠ k) := by
  induction m with
  | nil => simp [put]
  | cons q m ih =>
    obtain ⟨a, w⟩ := q
    unfold Sorted at hs
    rw [List.pairwise_cons] at hs
    have hlt : ∀ (x y : Str), codes x < codes y → x ≠ y := fun x y h e => by subst e; exact List.lt_irrefl _ h
    unfold put
    split
    · rename_i e
      subst e
      simp only [List.mem_cons]
      constructor
      · rintro (rfl | h)
        · exact Or.inl rfl
        · exact Or.inr ⟨Or.inr h, (hlt _ _ (hs.1 p h)).symm⟩
      · rintro (rfl | ⟨rfl | h, h2⟩)
        · exact Or.inl rfl
        · exact absurd rfl h2
        · exact Or.inr h
    · rename_i hne
      split
      · rename_i hb
        rw [before_iff] at hb
        simp only [List.mem_cons]
        constructor
        · rintro (rfl | rfl | h)
          · exact Or.inl rfl
          · exact Or.inr ⟨Or.inl rfl, fun e => hne e.symm⟩
          · exact Or.inr ⟨Or.inr h, (hlt _ _ (List.lt_trans hb (hs.1 p h))).symm⟩
        · rintro (rfl | ⟨h, _⟩)
          · exact Or.inl rfl
          · exact Or.inr h
      · simp only [List.mem_cons, ih hs.2]
        constructor
        · rintro (rfl | rfl | ⟨h, h2⟩)
          · exact Or.inr ⟨Or.inl rfl, fun e => hne e.symm⟩
          · exact Or.inl rfl
          · exact Or.inr ⟨Or.inr h, h2⟩
        · rintro (rfl | ⟨rfl | h, h2⟩)
          · exact Or.inr (Or.inl rfl)
          · exact Or.inl rfl
          · exact Or.inr (Or.inr ⟨h, h2⟩)

/-- Several assignments. -/
def puts (m : List (Str × α)) (l : List (Str × α)) : List (Str × α) := l.foldl (fun m p => put m p.1 p.2) m

theorem puts_append (m l1 l2 : List (Str × α)) : puts m (l1 ++ l2) = puts (puts m l1) l2 := List.foldl_append

theorem puts_sorted {m : List (Str × α)} (hs : Sorted m) (l : List (Str × α)) : Sorted (puts m l) := by
  induction l generalizing m with
  | nil => exact hs
  | cons p l ih => exact ih (put_sorted hs p.1 p.2)

theorem mem_puts {m : List (Str × α)} (hs : Sorted m) (l : List (Str × α)) (hf : ∀ p ∈ l, ∀ q ∈ l, p.1 = q.1 → p = q) (p : Str × α) :
    p ∈ puts m l ↔ p ∈ l ∨ (p ∈ m ∧ ∀ q ∈ l, q.1 ≠ p.1) := by
  induction l generalizing m with
  | nil => simp [puts]
  | cons a l ih =>
    have h := ih (put_sorted hs a.1 a.2) (fun p hp q hq => hf p (by simp [hp]) q (by simp [hq]))
    rw [show puts m (a :: l) = puts (put m a.1 a.2) l from rfl, h, mem_put hs]
    constructor
    · rintro (h | ⟨rfl | ⟨h1, h2⟩, h3⟩)
      · exact Or.inl (by simp [h])
      · exact Or.inl (by simp)
      · exact Or.inr ⟨h1, by
          intro q hq
          rcases List.mem_cons.1 hq with rfl | hq
          · exact fun e => h2 e.symm
          · exact h3 q hq⟩
    · rintro (h | ⟨h1, h2⟩)
      · rcases List.mem_cons.1 h with rfl | h
        · by_cases hx : ∃ q ∈ l, q.1 = p.1
          · obtain ⟨q, hq, e⟩ := hx
            exact Or.inl (hf q (by simp [hq]) p (by simp) e ▸ hq)
          · exact Or.inr ⟨Or.inl rfl, fun q hq e => hx ⟨q, hq, e⟩⟩
        · exact Or.inl h
      · exact Or.inr ⟨Or.inr ⟨h1, fun e => h2 a (by simp) e.symm⟩, fun q hq => h2 q (by simp [hq])⟩

theorem mem_puts_nil (l : List (Str × α)) (hf : ∀ p ∈ l, ∀ q ∈ l, p.1 = q.1 → p = q) (p : Str × α) : p ∈ puts [] l ↔ p ∈ l := by
  rw [mem_puts (by simp [Sorted]) l hf]
  simp

/-! ## The objects -/

/-- What one object puts into the maps. -/
def itemsOf (j : Job) (x : Hist × List Ext) : List (Str × Bytes × Bytes) :=
  (Guid.asMS (j.S.objId x.1), j.S.objVer x.1, j.objData x.1) :: x.2.map fun e => (j.S.extName e, j.S.extVer e, j.extData e)

def versOf (l : List (Str × Bytes × Bytes)) : List (Str × Str) := l.map fun t => (t.1, Guid.asMS t.2.1)
def filesOf (l : List (Str × Bytes × Bytes)) : List (Str × Bytes) := l.map fun t => (t.1, t.2.2)

theorem addExts_ok (j : Job) (es : List Ext) : ∀ m : Maps, (∀ e ∈ es, j.S.extData e = .ok (some (j.extData e))) →
    addExts j.S es m = .ok { m with
      vers := puts m.vers (versOf (es.map fun e => (j.S.extName e, j.S.extVer e, j.extData e)))
      files := puts m.files (filesOf (es.map fun e => (j.S.extName e, j.S.extVer e, j.extData e))) } := by
  induction es with
  | nil => intro m _; rfl
  | cons e es ih =>
    intro m h
    rw [addExts, h e (by simp)]
    show addExts j.S es _ = _
    rw [ih _ (fun e he => h e (by simp [he]))]
    rfl

theorem addObjects_ok (j : Job) (out : List (Hist × List Ext)) : ∀ m : Maps,
    (∀ x ∈ out, j.S.objData false x.1 = .ok (some (j.objData x.1)) ∧ ∀ e ∈ x.2, j.S.extData e = .ok (some (j.extData e))) →
    addObjects j.S false out m = .ok { m with
      vers := puts m.vers (versOf (out.flatMap (itemsOf j))), files := puts m.files (filesOf (out.flatMap (itemsOf j))) } := by
  induction out with
  | nil => intro m _; rfl
  | cons x out ih =>
    intro m h
    obtain ⟨r, es⟩ := x
    obtain ⟨h1, h2⟩ := h (r, es) (by simp)
    rw [addObjects, addObject, h1]
    show (addExts j.S es _ >>= fun m => addObjects j.S false out m) = _
    rw [addExts_ok j es _ h2, Outcome.ok_bind, ih _ (fun x hx => h x (by simp [hx]))]
    simp only [List.flatMap_cons, versOf, filesOf, List.map_append, puts_append]
    rfl

theorem num_eq (n : Nat) : num n = number n := by
  unfold num number
  rw [show toString n = String.ofList (Nat.toDigits 10 n) from rfl, String.toList_ofList]

theorem version_eq (S : Source) (a b : Nat) : S.deflate (marked (versionText a b)) = packedText S (versionTree a b) := by
  unfold versionText
  rw [num_eq, num_eq]
  rfl

theorem root_eq (S : Source) (r : Bytes) : S.deflate (marked (rootText false r [])) = packedText S (rootTree r) := by
  unfold rootText
  rw [show (Tree.Node.leaf .number ['2']) = number 2 from num_eq 2]
  rfl

theorem versions_eq (S : Source) (l : List (Str × Str)) : S.deflate (marked (versionsText l)) = packedText S (versionsTree l) := by
  unfold versionsText
  rw [show (Tree.Node.leaf .number ['1']) = number 1 from num_eq 1, num_eq]
  rfl

theorem maps_ok (j : Job) (major minor : Nat) (hm : 100 ≤ major) (rootobj : Bytes) (out : List (Hist × List Ext))
    (h : ∀ x ∈ out, j.S.objData false x.1 = .ok (some (j.objData x.1)) ∧ ∀ e ∈ x.2, j.S.extData e = .ok (some (j.extData e))) :
    ∃ m, maps j.S major minor rootobj out = .ok m ∧
      m.vers = puts [] ([([], Guid.asMS (j.S.gen 0)), ("version".toList, Guid.asMS (j.S.gen 1))] ++ versOf (out.flatMap (itemsOf j)) ++
        [("versions".toList, Guid.asMS (j.S.gen 2)), ("root".toList, Guid.asMS (j.S.gen 3))]) ∧
      m.files = puts [] ([("version".toList, packedText j.S (versionTree major minor))] ++ filesOf (out.flatMap (itemsOf j)) ++
        [("root".toList, packedText j.S (rootTree rootobj)), ("versions".toList, packedText j.S (versionsTree m.vers))]) := by
  unfold maps
  rw [decide_eq_false (by omega : ¬ major < 100), addObjects_ok j out _ h, Outcome.ok_bind]
  refine ⟨_, rfl, ?_, ?_⟩
  · simp only [finish, puts_append]
    rfl
  · unfold finish start
    simp only [Bool.false_eq_true, if_false, puts_append]
    rw [version_eq, root_eq, versions_eq]
    rfl

/-! ### The old format -/

/-- What the objects put into the map of the container `metadata`. -/
def objectsOf (j : Job) (out : List (Hist × List Ext)) : List (Str × Bytes × Bytes) :=
  out.map fun x => (Guid.asMS (j.S.objId x.1), j.S.objVer x.1, j.objData x.1)

/-- What their external data put into the other map. -/
def extsOf (j : Job) (out : List (Hist × List Ext)) : List (Str × Bytes × Bytes) :=
  out.flatMap fun x => x.2.map fun e => (j.S.extName e, j.S.extVer e, j.extData e)

theorem addObjects_old (j : Job) (out : List (Hist × List Ext)) : ∀ m : Maps,
    (∀ x ∈ out, j.S.objData true x.1 = .ok (some (j.objData x.1)) ∧ ∀ e ∈ x.2, j.S.extData e = .ok (some (j.extData e))) →
    addObjects j.S true out m = .ok
      { vers := puts m.vers (versOf (extsOf j out)), files := puts m.files (filesOf (extsOf j out))
        roots := puts m.roots (versOf (objectsOf j out)), metas := puts m.metas (filesOf (objectsOf j out)) } := by
  induction out with
  | nil => intro m _; rfl
  | cons x out ih =>
    intro m h
    obtain ⟨r, es⟩ := x
    obtain ⟨h1, h2⟩ := h (r, es) (by simp)
    rw [addObjects, addObject, h1]
    show (addExts j.S es _ >>= fun m => addObjects j.S true out m) = _
    rw [addExts_ok j es _ h2, Outcome.ok_bind, ih _ (fun x hx => h x (by simp [hx]))]
    simp only [extsOf, objectsOf, List.flatMap_cons, List.map_cons, versOf, filesOf, List.map_append, puts_append]
    rfl

theorem root_old_eq (r : Bytes) (l : List (Str × Str)) :
    marked (rootText true r l) = [0xEF, 0xBB, 0xBF] ++ utf8Text (codes (Tree.outtext (.list [rootTreeOld r l]))) := by
  unfold rootText
  rw [show (Tree.Node.leaf .number ['1']) = number 1 from num_eq 1, num_eq]
  rfl

theorem maps_old (j : Job) (major minor : Nat) (hm : major < 100) (rootobj : Bytes) (out : List (Hist × List Ext))
    (h : ∀ x ∈ out, j.S.objData true x.1 = .ok (some (j.objData x.1)) ∧ ∀ e ∈ x.2, j.S.extData e = .ok (some (j.extData e))) :
    ∃ m, maps j.S major minor rootobj out = .ok m ∧
      m.vers = puts [] ([([], Guid.asMS (j.S.gen 0)), ("version".toList, Guid.asMS (j.S.gen 1))] ++ versOf (extsOf j out) ++
        [("versions".toList, Guid.asMS (j.S.gen 2))]) ∧
      m.files = puts [] ([("version".toList, packedText j.S (versionTree major minor))] ++ filesOf (extsOf j out) ++
        [("versions".toList, packedText j.S (versionsTree m.vers))]) ∧
      m.roots = puts [] (versOf (objectsOf j out)) ∧
      m.metas = puts [] (filesOf (objectsOf j out) ++
        [("root".toList, [0xEF, 0xBB, 0xBF] ++ utf8Text (codes (Tree.outtext (.list [rootTreeOld rootobj m.roots]))))]) := by
  unfold maps
  rw [decide_eq_true hm, addObjects_old j out _ h, Outcome.ok_bind]
  refine ⟨_, rfl, ?_, ?_, ?_, ?_⟩
  · simp only [finish, puts_append, if_true]
    rfl
  · unfold finish start
    simp only [if_true, puts_append]
    rw [version_eq, versions_eq]
    rfl
  · rfl
  · unfold finish start
    simp only [if_true, puts_append]
    rw [root_old_eq]
    rfl

/-! ## The container -/

/-- A new entry is as new as it says. -/
theorem store_plain {k : Catalog} {s : Store} {ls : Ghost} (h : Container.Inv plainCodec k s ls) (n : Str) (hn : ∀ c ∈ n, c.toNat ≠ 0) (b : Bytes)
    (hb : b ≠ []) (now : Nat) (hnow : now < 2 ^ 64) (hno : ∀ x ∈ ls, ¬ SameText x.2.1 (codes n)) (fuel : Nat) (hf : LAST ≤ fuel)
    (hd : extent k.cat + (b.length + (utf16Text (codes n)).length + 86) < LAST) :
    ∃ e0 k0 k' s' e', createFile k (Config.textBytes n) now = .ok (e0, k0) ∧
      writeAndClose plainCodec fuel k0 e0 b = .ok (some k') ∧
      Container.Inv plainCodec k' s' (ls ++ [(e', (codes n, b))]) ∧ e'.content = none ∧
      extent k'.cat ≤ extent k.cat + (b.length + (utf16Text (codes n)).length + 86) := by
  have hcost := cost_new k.fresh _ (name_codes hn) now now b
  obtain ⟨e0, k0, k', s', e', hc, hw, hinv, _, hcn, _, hx⟩ := store_ok h (codes n) (name_codes hn) b (packs_plain hb)
    now now now hnow hno fuel hf (by rw [hcost]; exact hd)
  refine ⟨e0, k0, k', s', e', hc, ?_, hinv, hcn, by rw [hcost] at hx; exact hx⟩
  have hid : ∀ y ∈ k.ents, y.id ≠ k.fresh := by
    intro y hy
    rw [h.core.ents] at hy
    obtain ⟨w, hw, rfl⟩ := List.mem_map.1 hy
    have := h.core.fresh w hw
    omega
  have hset : setTimes k0 e0 now now = (e0, k0) := by
    have hc2 := hc
    unfold createFile at hc2
    rcases getFile_core h.core (codes n) (name_codes hn) with ⟨e, _⟩ | ⟨l1, x, l2, rfl, _, hs, _, _⟩
    · rw [e, Outcome.ok_bind] at hc2
      simp only at hc2
      unfold addEntry at hc2
      simp only at hc2
      rw [lower_name (name_codes hn), Outcome.ok_bind, Outcome.ok_bind] at hc2
      cases hc2
      unfold setTimes
      simp only
      rw [update_last (e := ⟨k.fresh, utf8Text (codes n), now, now, 0, 0, none, true, true⟩)
        (e' := ⟨k.fresh, utf8Text (codes n), now, now, 0, 0, none, true, true⟩) hid rfl]
    · exact absurd hs (hno x (by simp))
  rw [hset] at hw
  exact hw

/-- The sum in `Spec.room`. -/
def bulk (fs : List (Str × Bytes)) : Nat := (fs.map fun p => p.2.length + (utf16Text (codes p.1)).length + 86).sum

theorem storeAll_ok (fuel now : Nat) (hf : LAST ≤ fuel) (hnow : now < 2 ^ 64) (fs : List (Str × Bytes)) : ∀ (k : Catalog) (s : Store) (ls : Ghost),
    Container.Inv plainCodec k s ls → (∀ p ∈ fs, p.2 ≠ [] ∧ ∀ c ∈ p.1, c.toNat ≠ 0) → fs.Pairwise (fun p q => ¬ SameName p.1 q.1) →
    (∀ x ∈ ls, ∀ p ∈ fs, ¬ SameText x.2.1 (codes p.1)) → extent k.cat + bulk fs < LAST →
    ∃ k' s' ls', storeAll fuel now k fs = .ok (some k') ∧ Container.Inv plainCodec k' s' (ls ++ ls') ∧
      ls'.map Prod.snd = fs.map (fun p => (codes p.1, p.2)) ∧
      extent k'.cat ≤ extent k.cat + bulk fs ∧ ∀ x ∈ ls', x.1.content = none := by
  induction fs with
  | nil =>
    intro k s ls h _ _ _ _
    exact ⟨k, s, [], rfl, by simpa using h, by simp, by simp [bulk], by simp⟩
  | cons p fs ih =>
    intro k s ls h hne hn hno hd
    have hb : bulk (p :: fs) = (p.2.length + (utf16Text (codes p.1)).length + 86) + bulk fs := rfl
    rw [hb] at hd
    rw [List.pairwise_cons] at hn
    obtain ⟨e0, k0, k1, s1, e1, hc, hw, hi1, hcn, hx1⟩ := store_plain h p.1 (hne p (by simp)).2 p.2 (hne p (by simp)).1 now hnow
      (fun x hx => hno x hx p (by simp)) fuel hf (by omega)
    obtain ⟨k2, s2, ls2, hs2, hi2, ha, hx2, ht2⟩ := ih k1 s1 _ hi1 (fun q hq => hne q (by simp [hq])) hn.2 (by
        intro x hx q hq
        rcases List.mem_append.1 hx with hx | hx
        · exact hno x hx q (by simp [hq])
        · rw [List.mem_singleton.1 hx]
          exact hn.1 q hq) (by omega)
    refine ⟨k2, s2, (e1, (codes p.1, p.2)) :: ls2, ?_, by rw [List.append_assoc] at hi2; exact hi2, ?_, by omega, ?_⟩
    · rw [storeAll, hc, Outcome.ok_bind]
      simp only
      rw [hw, Outcome.ok_bind]
      exact hs2
    · rw [List.map_cons, List.map_cons, ha]
    · intro x hx
      rcases List.mem_cons.1 hx with rfl | hx
      · exact hcn
      · exact ht2 x hx

theorem closed_cost (cd : Codec) (ls : Ghost) (h : ∀ x ∈ ls, x.1.content = none) : totalCost cd (ls.map Prod.fst) = 0 := by
  unfold totalCost
  induction ls with
  | nil => rfl
  | cons x ls ih =>
    rw [List.map_cons, List.map_cons, List.sum_cons, ih (fun y hy => h y (by simp [hy]))]
    simp [cost, h x (by simp)]

/-- A container with these names and contents keeps them. -/
theorem keeps_of_inv {fuel : Nat} (hf : LAST ≤ fuel) {k : Catalog} {s : Store} {ls : Ghost} (h : Container.Inv plainCodec k s ls)
    (hx : extent k.cat < LAST) {fs : List (Str × Bytes)} (hs : ls.map Prod.snd = fs.map (fun p => (codes p.1, p.2)))
    (hne : ∀ p ∈ fs, ∀ c ∈ p.1, c.toNat ≠ 0) (hn : fs.Pairwise (fun p q => ¬ SameName p.1 q.1)) : Keeps fuel k fs := by
  have hcont : ∀ n : Str, (∀ c ∈ n, c.toNat ≠ 0) → content plainCodec fuel k (utf8Text (codes n)) =
      .ok (some (lookup (fs.map (fun p => (codes p.1, p.2))) (codes n))) := by
    intro n hn
    have := content_ok h hx fuel hf (codes n) (name_codes hn)
    rw [hs] at this
    exact this
  refine ⟨?_, ?_, ?_, ?_⟩
  · have := congrArg List.length hs
    rw [h.core.ents]
    simpa using this
  · intro i e p he hp
    rw [h.core.ents, List.getElem?_map] at he
    cases hxi : ls[i]? with
    | none => rw [hxi] at he; cases he
    | some x =>
      rw [hxi] at he
      cases he
      have h4 := congrArg (·[i]?) hs
      simp only [List.getElem?_map, hxi, hp, Option.map_some, Option.some.injEq] at h4
      have hok := h.core.ok x (List.mem_of_getElem? hxi)
      obtain ⟨z, hz⟩ := hok.name
      rw [h4] at hz
      exact ⟨z, hz⟩
  · intro p hp n hn0 hsame
    rw [hcont n hn0]
    obtain ⟨l1, l2, rfl⟩ := List.append_of_mem hp
    rw [List.map_append, List.map_cons, lookup_present _ _ _ (codes p.1, p.2) _ hsame]
    intro q hq hq2
    obtain ⟨r, hr1, rfl⟩ := List.mem_map.1 hq
    have h6 := hn
    rw [List.pairwise_append] at h6
    refine h6.2.2 r hr1 p (by simp) ?_
    have a1 := name_codes (hne r (by simp [hr1]))
    have a2 := name_codes (hne p (by simp))
    have k1 := (key_same a1 (name_codes hn0)).2 hq2
    have k2 := (key_same a2 (name_codes hn0)).2 hsame
    exact (key_same a1 a2).1 (k1.trans k2.symm)
  · intro n hn0 hno
    rw [hcont n hn0, lookup_absent]
    intro q hq
    obtain ⟨r, hr1, rfl⟩ := List.mem_map.1 hq
    exact hno r hr1

/-- Flushing, closing and opening again. -/
theorem closed_keeps {fuel : Nat} (hf : LAST ≤ fuel) {k : Catalog} {s : Store} {ls : Ghost} (h : Container.Inv plainCodec k s ls)
    (hd : extent k.cat + flushCost plainCodec k < LAST) {fs : List (Str × Bytes)} (hs : ls.map Prod.snd = fs.map (fun p => (codes p.1, p.2)))
    (hne : ∀ p ∈ fs, ∀ c ∈ p.1, c.toNat ≠ 0) (hn : fs.Pairwise (fun p q => ¬ SameName p.1 q.1)) :
    ∃ d k' m, destroy plainCodec fuel k = .ok (some d) ∧ Nested.destroyMarked plainCodec fuel k = .ok (some (d, m)) ∧
      openCatalog fuel d = .ok (some (.container k')) ∧ Keeps fuel k' fs ∧ d.length ≤ extent k.cat + flushCost plainCodec k := by
  obtain ⟨k2, s2, ls2, e2, h2, _, _, _, _, _, hx2⟩ := flush_bounded h hd fuel hf
  obtain ⟨k3, s3, ls3, e3, h3, hs3, _, hx3⟩ := reopen_ok h hd fuel hf
  have hopen : openCatalog fuel k2.cat.data.data = .ok (some (.container k3)) := by
    unfold reopen at e3
    rw [e2, Outcome.ok_bind] at e3
    exact e3
  exact ⟨_, k3, _, destroy_of_flush e2, (Nested.flush_marks e2).1, hopen, keeps_of_inv hf h3 hx3 (hs3.trans hs) hne hn,
    by unfold extent at hx2; unfold extent; omega⟩

theorem storeFiles_ok (fuel now : Nat) (hf : LAST ≤ fuel) (hnow : now < 2 ^ 64) (old : Option Bytes) (fs : List (Str × Bytes))
    (hne : ∀ p ∈ fs, p.2 ≠ [] ∧ ∀ c ∈ p.1, c.toNat ≠ 0) (hn : fs.Pairwise (fun p q => ¬ SameName p.1 q.1)) (hroom : Spec.room fs < 2 ^ 31 - 1) :
    ∃ d k, storeFiles fuel now old fs = .ok (some d) ∧ openCatalog fuel d = .ok (some (.container k)) ∧ Keeps fuel k fs := by
  have hL : LAST = 2147483647 := rfl
  have hroom' : extent blankCatalog.cat + bulk fs + (31 + max (2 ^ 16) (12 * fs.length)) < LAST := by
    have : extent blankCatalog.cat = 2 ^ 17 := by decide
    rw [this, hL]
    unfold Spec.room at hroom
    unfold bulk
    omega
  obtain ⟨k1, s1, ls1, e1, hi1, ha, hx, ht⟩ := storeAll_ok fuel now hf hnow fs blankCatalog _ [] (blank_inv _) hne hn (by simp) (by omega)
  rw [List.nil_append] at hi1
  have hlen : k1.ents.length = fs.length := by
    have := congrArg List.length ha
    rw [hi1.core.ents]
    simpa using this
  have hcost : extent k1.cat + flushCost plainCodec k1 < LAST := by
    unfold flushCost
    rw [hlen, hi1.core.ents, closed_cost _ _ ht]
    omega
  obtain ⟨d, k, _, hd, _, hopen, hk, _⟩ := closed_keeps hf hi1 hcost ha (fun p hp => (hne p hp).2) hn
  refine ⟨d, k, ?_, hopen, hk⟩
  unfold storeFiles
  have hcur : (if old.isSome then none else old) = none := by cases old <;> rfl
  rw [hcur]
  have hon : openNamed fuel none = .ok (some (.container blankCatalog)) := rfl
  rw [hon, Outcome.ok_bind]
  simp only
  rw [e1, Outcome.ok_bind]
  exact hd

/-! ## The old format -/

/-- The container with an entry `metadata` in which there is an empty container. -/
def withMeta (now : Nat) : Catalog := withEnt blankCatalog (codes "metadata".toList) (newEnt blankCatalog.fresh (codes "metadata".toList) now now template)

theorem meta_name : Name (codes "metadata".toList) := name_codes (by decide)

theorem meta_made (fuel now : Nat) (hnow : now < 2 ^ 64) :
    Nested.createCatalog plainCodec fuel ⟨blankCatalog, .nil⟩ (Config.textBytes "metadata".toList) now =
      .ok (some (0, some ⟨blankCatalog, .nil⟩, ⟨withMeta now, .some blankCatalog .nil .nil⟩)) := by
  have he : getFile blankCatalog (utf8Text (codes "metadata".toList)) = .ok none := by
    rcases getFile_core (blank_inv plainCodec).core _ meta_name with ⟨e, _⟩ | ⟨l1, x, l2, h, _⟩
    · exact e
    · cases l1 <;> cases h
  exact Nested.createCatalog_new (n := ⟨blankCatalog, .nil⟩) (blank_inv plainCodec) meta_name (packs_plain (by decide)) now hnow he (by simp) rfl

theorem storeOld_ok (deflate : Bytes → Bytes) (fuel now : Nat) (hf : LAST ≤ fuel) (hnow : now < 2 ^ 64) (old : Option Bytes) (ms fs : List (Str × Bytes))
    (hmne : ∀ p ∈ ms, p.2 ≠ [] ∧ ∀ c ∈ p.1, c.toNat ≠ 0) (hmn : ms.Pairwise (fun p q => ¬ SameName p.1 q.1))
    (hne : ∀ p ∈ fs, p.2 ≠ [] ∧ ∀ c ∈ p.1, c.toNat ≠ 0) (hn : fs.Pairwise (fun p q => ¬ SameName p.1 q.1))
    (hno : ∀ p ∈ fs, ¬ SameName "metadata".toList p.1) (hdef : ∀ b, deflate b ≠ []) (hroom1 : Spec.room ms < 2 ^ 31 - 1)
    (hroom2 : ∀ b, b.length ≤ Spec.room ms → Spec.room (("metadata".toList, deflate b) :: fs) < 2 ^ 31 - 1) :
    ∃ d k b ki, storeOld deflate fuel now old ms fs = .ok (some d) ∧ openCatalog fuel d = .ok (some (.container k)) ∧
      Keeps fuel k (("metadata".toList, deflate b) :: fs) ∧ openCatalog fuel b = .ok (some (.container ki)) ∧ Keeps fuel ki ms := by
  have hL : LAST = 2147483647 := rfl
  have hblank : extent blankCatalog.cat = 2 ^ 17 := by decide
  -- the inner container
  have hr1 : extent blankCatalog.cat + bulk ms + (31 + max (2 ^ 16) (12 * ms.length)) = Spec.room ms := by
    rw [hblank]
    unfold Spec.room bulk
    omega
  obtain ⟨ki, si, lsi, ei, hii, hai, hxi, hti⟩ := storeAll_ok fuel now hf hnow ms blankCatalog _ [] (blank_inv _) hmne hmn (by simp) (by omega)
  rw [List.nil_append] at hii
  have hleni : ki.ents.length = ms.length := by
    have := congrArg List.length hai
    rw [hii.core.ents]
    simpa using this
  have hcosti : extent ki.cat + flushCost plainCodec ki ≤ Spec.room ms := by
    unfold flushCost
    rw [hleni, hii.core.ents, closed_cost _ _ hti]
    omega
  obtain ⟨b, ki', m, _, hdm, hopeni, hki, hlenb⟩ := closed_keeps hf hii (by omega) hai (fun p hp => (hmne p hp).2) hmn
  -- the outer one
  have hr2 := hroom2 b (by omega)
  have hbl : Spec.room (("metadata".toList, deflate b) :: fs) =
      2 ^ 17 + 31 + max (2 ^ 16) (12 * (fs.length + 1)) + ((deflate b).length + (utf16Text (codes "metadata".toList)).length + 86 + bulk fs) := by
    unfold Spec.room bulk
    rw [List.map_cons, List.sum_cons, List.length_cons]
  rw [hbl] at hr2
  have hadd := add_inv (blank_inv plainCodec) _ meta_name template (packs_plain (by decide)) now now hnow (by simp)
  rw [List.nil_append] at hadd
  obtain ⟨k1, s1, ls1, e1, hi1, ha1, hx1, ht1⟩ := storeAll_ok fuel now hf hnow fs (withMeta now) _ _ hadd hne hn (by
      intro x hx p hp
      rw [List.mem_singleton.1 hx]
      exact hno p hp) (by
      show extent blankCatalog.cat + bulk fs < LAST
      omega)
  have hx1' : extent k1.cat ≤ 2 ^ 17 + bulk fs := by rw [← hblank]; exact hx1
  have hents : k1.ents = newEnt blankCatalog.fresh (codes "metadata".toList) now now template :: ls1.map Prod.fst := hi1.core.ents
  have hok := hi1.core.ok (newEnt blankCatalog.fresh (codes "metadata".toList) now now template, (codes "metadata".toList, template)) (by simp)
  have hsw := Nested.swap_inv (l1 := []) (l2 := ls1) hi1 (newEnt blankCatalog.fresh (codes "metadata".toList) now now (deflate b)) (deflate b) rfl rfl rfl
    ⟨hok.name, hok.isName, hok.created, fun b' hb' => (Option.some.inj hb').symm, fun hc => by simp [newEnt] at hc, packs_plain (hdef b),
      hok.dataLive, hok.headLive, fun h => by simp [newEnt] at h, fun h => by simp [newEnt] at h, hok.apart, hok.notDir⟩
  rw [List.nil_append] at hsw
  have hpack : packEntry deflate 0 b m k1.ents = ((newEnt blankCatalog.fresh (codes "metadata".toList) now now (deflate b), (codes "metadata".toList, deflate b)) :: ls1).map Prod.fst := by
    unfold packEntry
    rw [hents]
    simp only [List.replicate_zero, List.nil_append, Nested.putBack, List.map_cons]
    have : ∀ es : List File, Nested.putBack es [] = es := by intro es; cases es <;> rfl
    rw [this]
    simp [newEnt]
  have hlen1 : ls1.length = fs.length := by
    have := congrArg List.length ha1
    simpa using this
  have hcost : extent ({ k1 with ents := packEntry deflate 0 b m k1.ents } : Catalog).cat +
      flushCost plainCodec { k1 with ents := packEntry deflate 0 b m k1.ents } < LAST := by
    unfold flushCost
    simp only
    rw [hpack, List.map_cons]
    have hc : totalCost plainCodec (newEnt blankCatalog.fresh (codes "metadata".toList) now now (deflate b) :: ls1.map Prod.fst) =
        (deflate b).length + (utf16Text (codes "metadata".toList)).length + 86 := by
      have h0 := closed_cost plainCodec ls1 ht1
      unfold totalCost at h0 ⊢
      rw [List.map_cons, List.sum_cons, h0]
      exact cost_new blankCatalog.fresh _ meta_name now now (deflate b)
    rw [hc, List.length_cons, List.length_map, hlen1]
    omega
  rw [← hpack] at hsw
  obtain ⟨d, k, _, hd, _, hopen, hk, _⟩ := closed_keeps hf hsw hcost (fs := ("metadata".toList, deflate b) :: fs)
    (by rw [List.map_cons, List.map_cons, ha1]) (by
      intro p hp
      rcases List.mem_cons.1 hp with rfl | hp
      · exact (by decide : ∀ c ∈ "metadata".toList, c.toNat ≠ 0)
      · exact (hne p hp).2) (List.pairwise_cons.2 ⟨fun p hp => hno p hp, hn⟩)
  refine ⟨d, k, b, ki', ?_, hopen, hk, hopeni, hki⟩
  unfold storeOld
  have hcur : (if old.isSome then none else old) = none := by cases old <;> rfl
  rw [hcur]
  have hon : openNamed fuel none = .ok (some (.container blankCatalog)) := rfl
  rw [hon, Outcome.ok_bind]
  simp only
  have hbe : Nested.Subs.blank blankCatalog.ents.length = .nil := rfl
  rw [hbe, meta_made fuel now hnow, Outcome.ok_bind]
  simp only
  rw [ei, Outcome.ok_bind]
  simp only
  rw [e1, Outcome.ok_bind]
  simp only
  rw [hdm, Outcome.ok_bind]
  exact hd

/-! ## Trees -/

theorem hexByte_hex (d : UInt8) : ∀ c ∈ Hex.hexByte d, c ∈ "0123456789abcdefABCDEF".toList := by
  revert d; apply forall_byte; decide +kernel

theorem asMS_guid (g : Bytes) : Tree.Spec.IsGuid (Guid.asMS g) := by
  have h : ∀ (i : Nat), Tree.Spec.Hex 2 (Hex.hexByte (g.getD i 0)) := fun i => ⟨rfl, hexByte_hex _⟩
  have ap : ∀ {a b : Str} {m n : Nat}, Tree.Spec.Hex m a → Tree.Spec.Hex n b → Tree.Spec.Hex (m + n) (a ++ b) := by
    intro a b m n ha hb
    refine ⟨by rw [List.length_append, ha.1, hb.1], fun c hc => ?_⟩
    rcases List.mem_append.1 hc with hc | hc
    · exact ha.2 c hc
    · exact hb.2 c hc
  exact ⟨_, _, _, _, _, rfl, ap (h 3) (ap (h 2) (ap (h 1) (h 0))), ap (h 5) (h 4), ap (h 7) (h 6), ap (h 8) (h 9),
    ap (h 10) (ap (h 11) (ap (h 12) (ap (h 13) (ap (h 14) (h 15)))))⟩

theorem guid_chars {s : Str} (h : Tree.Spec.IsGuid s) : s ≠ [] ∧ ∀ c ∈ s, c ∈ "-0123456789abcdefABCDEF".toList := by
  obtain ⟨a, b, c, d, e, rfl, ha, hb, hc, hd, he⟩ := h
  refine ⟨by simp, fun x hx => ?_⟩
  have w : ∀ c ∈ "0123456789abcdefABCDEF".toList, c ∈ "-0123456789abcdefABCDEF".toList := by decide
  simp only [List.mem_append, List.mem_cons] at hx
  rcases hx with hx | rfl | hx | rfl | hx | rfl | hx | rfl | hx
  · exact w _ (ha.2 x hx)
  · decide
  · exact w _ (hb.2 x hx)
  · decide
  · exact w _ (hc.2 x hx)
  · decide
  · exact w _ (hd.2 x hx)
  · decide
  · exact w _ (he.2 x hx)

theorem token_chars {t : Tree.NType} {s : Str} (hne : s ≠ []) (hc : ∀ c ∈ s, c ∈ "-0123456789abcdefABCDEF".toList) (ht : t ≠ .unknown)
    (h : Tree.Spec.HasType s t) : Tree.Spec.Token t s := by
  have w : ∀ c ∈ "-0123456789abcdefABCDEF".toList, c ∉ [' ', '\t', '\r', '\n'] ∧ c ≠ '\x00' := by decide
  have h0 : '\x00' ∉ s := fun h => (w _ (hc _ h)).2 rfl
  refine ⟨hne, h0, ?_, ht, Tree.type_unique s t h0 h⟩
  intro c hcc
  exact (w c (hc c (List.mem_of_mem_head? hcc))).1

theorem guid_wf (g : Bytes) : Tree.Spec.WellFormed (.leaf .guid (Guid.asMS g)) := by
  have h := asMS_guid g
  exact .token (token_chars (guid_chars h).1 (guid_chars h).2 (by decide) (.guid h))

theorem number_wf (n : Nat) : Tree.Spec.WellFormed (number n) := by
  rw [← num_eq]
  unfold num
  have hne : Nat.toDigits 10 n ≠ [] := Nat.toDigits_ne_nil
  have hd : Tree.Spec.Digits (Nat.toDigits 10 n) := by
    refine ⟨hne, fun c hc => ?_⟩
    have h1 := Nat.isDigit_of_mem_toDigits (by decide) (by decide) hc
    have := (Tree.digits_iff [c]).1 ⟨by simp, by
      intro x hx
      rw [List.mem_singleton.1 hx]
      simp only [Char.isDigit, Bool.and_eq_true, decide_eq_true_eq] at h1
      simp only [Tree.isDigit, decide_eq_true_eq]
      exact ⟨h1.1, h1.2⟩⟩
    exact this.2 c (by simp)
  have w : ∀ c ∈ "0123456789".toList, c ∈ "-0123456789abcdefABCDEF".toList := by decide
  exact .token (token_chars hne (fun c hc => w c (hd.2 c hc)) (by decide) (.number ⟨_, hd, Or.inl rfl⟩))

theorem version_parses (a b : Nat) : Tree.parseText (Tree.outtext (.list [versionTree a b])) = .ok (.list [versionTree a b]) := by
  refine Tree.print_parse_partial _ ?_ (by simp [versionTree])
  refine .list ?_ trivial
  intro n hn
  rw [List.mem_singleton.1 hn]
  refine .list ?_ trivial
  intro n hn
  simp only [List.mem_cons, List.not_mem_nil, or_false] at hn
  rcases hn with rfl | rfl
  · exact number_wf a
  · exact number_wf b

theorem root_parses (r : Bytes) : Tree.parseText (Tree.outtext (.list [rootTree r])) = .ok (.list [rootTree r]) := by
  refine Tree.print_parse_partial _ ?_ (by simp [rootTree])
  refine .list ?_ trivial
  intro n hn
  simp only [List.mem_cons, List.not_mem_nil, or_false] at hn
  rcases hn with rfl | rfl
  · exact number_wf 2
  · exact guid_wf r

theorem root_old_parses (r : Bytes) (l : List (Str × Str)) (h : ∀ p ∈ l, ∃ g, p.2 = Guid.asMS g) :
    Tree.parseText (Tree.outtext (.list [rootTreeOld r l])) = .ok (.list [rootTreeOld r l]) := by
  refine Tree.print_parse_partial _ ?_ (by simp [rootTreeOld])
  refine .list ?_ trivial
  intro n hn
  simp only [List.mem_cons, List.mem_flatMap, List.not_mem_nil, or_false] at hn
  rcases hn with rfl | rfl | rfl | ⟨p, hp, rfl | rfl⟩
  · exact number_wf 1
  · exact guid_wf r
  · exact number_wf _
  · exact .string _
  · obtain ⟨g, hg⟩ := h p hp
    rw [hg]
    exact guid_wf g

theorem versions_parses (l : List (Str × Str)) (h : ∀ p ∈ l, ∃ g, p.2 = Guid.asMS g) :
    Tree.parseText (Tree.outtext (.list [versionsTree l])) = .ok (.list [versionsTree l]) := by
  refine Tree.print_parse_partial _ ?_ (by simp [versionsTree])
  refine .list ?_ trivial
  intro n hn
  simp only [List.mem_cons, List.mem_flatMap, List.not_mem_nil, or_false] at hn
  rcases hn with rfl | rfl | ⟨p, hp, rfl | rfl⟩
  · exact number_wf 1
  · exact number_wf _
  · exact .string _
  · obtain ⟨g, hg⟩ := h p hp
    rw [hg]
    exact guid_wf g

end Verif.Depot.File
