import Verif.Object.DeleteTheorems

/-! # Property theorems: deleting an object of format 8.3.8 (C27)

`delete_object` knows only the tables of format 8.0: a page whose first word is the number of entries that follow. In format 8.3.8 the pages
the header of an object names are its data pages, or tables without a number of entries. -/

namespace Verif.Object
open Verif

/-- A page that, read as a table of format 8.0, lists the pages `ns`. -/
def ReadAsTable (s : St) (t : Nat) (ns : List Nat) : Prop :=
  ∃ p, s.pages[t]? = some p ∧ Spec.word p 0 = some ns.length ∧ ∀ (j : Nat) (h : j < ns.length), Spec.word p (4 + 4 * j) = some ns[j]

/-- The calls of `set_block_as_free`, recorded. -/
def record (l : List Nat) (p : Nat) : Outcome (List Nat) := .ok (l ++ [p])

theorem freeEntries_record {s : St} {t : Nat} {ns : List Nat} (h : ReadAsTable s t ns) : ∀ (n j : Nat) (l : List Nat), j + n = ns.length →
    freeEntries (fun _ => s) record t n j l = .ok (l ++ ns.drop j)
  | 0, j, l, hj => by
    rw [List.drop_eq_nil_of_le (by omega), List.append_nil]
    rfl
  | n + 1, j, l, hj => by
    have hr := h
    obtain ⟨p, h1, _, h3⟩ := h
    have hlt : j < ns.length := by omega
    rw [freeEntries]
    simp only [peek_of_word h1 (h3 j hlt), Outcome.ok_bind]
    show (do let s' ← record l ns[j]; freeEntries (fun _ => s) record t n (j + 1) s') = _
    unfold record
    simp only [Outcome.ok_bind]
    have := freeEntries_record hr n (j + 1) (l ++ [ns[j]]) (by omega)
    unfold record at this
    rw [this, List.drop_eq_getElem_cons hlt]
    simp

theorem freeTables_record {s : St} : ∀ {ts : List Nat} {nss : List (List Nat)}, ts.length = nss.length →
    (∀ (i : Nat) t ns, ts[i]? = some t → nss[i]? = some ns → ReadAsTable s t ns) → ∀ l : List Nat,
    freeTables (fun _ => s) record ts l = .ok (l ++ nss.flatten)
  | [], [], _, _, l => by rw [List.flatten_nil, List.append_nil]; rfl
  | t :: ts, ns :: nss, hl, h, l => by
    have ht := h 0 t ns rfl rfl
    have hrest := freeTables_record (ts := ts) (nss := nss) (by simpa using hl) (fun i t ns a b => h (i + 1) t ns a b) (l ++ ns)
    have he := freeEntries_record ht ns.length 0 l (by omega)
    obtain ⟨p, h1, h2, _⟩ := ht
    rw [freeTables]
    simp only [(getPage_ok _ _ _).mpr h1, peek_of_word h1 h2, Outcome.ok_bind]
    rw [he]
    simp only [Outcome.ok_bind, List.drop_zero]
    rw [hrest]
    simp
  | [], _ :: _, h, _, _ => by simp at h
  | _ :: _, [], h, _, _ => by simp at h

theorem freeAll_record : ∀ (ps l : List Nat), freeAll record ps l = .ok (l ++ ps)
  | [], l => by rw [List.append_nil]; rfl
  | p :: ps, l => by
    rw [freeAll]
    show (do let s' ← (.ok (l ++ [p]) : Outcome (List Nat)); freeAll record ps s') = _
    simp only [Outcome.ok_bind]
    rw [freeAll_record ps]
    simp

/-- **C27, which pages are released in format 8.3.8.** Every page `roots` the header names is read as a table of format 8.0, and the pages
it seems to list are released first; then `roots`, then the header page once per page named. -/
theorem delete_calls_838 (s : St) (o : Obj) (roots : List Nat) (hb : o.blocks = roots) (hn : o.numblocks = roots.length)
    (h1 : o.block ≠ 1) (h2 : o.block ≠ 2) (nss : List (List Nat)) (hl : roots.length = nss.length)
    (h : ∀ (i : Nat) t ns, roots[i]? = some t → nss[i]? = some ns → ReadAsTable s t ns) :
    deleteObject (σ := List Nat) (fun _ => s) record o [] = .ok (nss.flatten ++ roots ++ List.replicate roots.length o.block) := by
  unfold deleteObject
  rw [if_neg (by omega), hn, hb, List.take_length]
  rw [freeTables_record hl h]
  simp only [Outcome.ok_bind]
  rw [freeAll_record]
  simp only [Outcome.ok_bind]
  rw [freeAll_record]
  simp

/-- **C27, counterexample in general.** An object of format 8.3.8 with data pages `roots` (a one-level object) has each of its pages released
exactly once if and only if it has exactly one data page and the first four bytes of its contents are zero. -/
theorem delete_838_once_iff (s : St) (o : Obj) (roots : List Nat) (hb : o.blocks = roots) (hn : o.numblocks = roots.length)
    (h1 : o.block ≠ 1) (h2 : o.block ≠ 2) (nss : List (List Nat)) (hl : roots.length = nss.length)
    (h : ∀ (i : Nat) t ns, roots[i]? = some t → nss[i]? = some ns → ReadAsTable s t ns) :
    (∃ calls, deleteObject (σ := List Nat) (fun _ => s) record o [] = .ok calls ∧ calls.Perm (o.block :: roots)) ↔
      ∃ d p, roots = [d] ∧ s.pages[d]? = some p ∧ Spec.word p 0 = some 0 := by
  rw [delete_calls_838 s o roots hb hn h1 h2 nss hl h]
  constructor
  · rintro ⟨calls, hc, hp⟩
    cases hc
    have hlen := hp.length_eq
    simp only [List.length_append, List.length_replicate, List.length_cons] at hlen
    have hk : roots.length ≤ 1 := by omega
    match roots, nss, hl with
    | [], [], _ => simp at hlen
    | [d], [ns], _ =>
      obtain ⟨p, a1, a2, _⟩ := h 0 d ns rfl rfl
      have : ns.length = 0 := by simp at hlen; rw [hlen]; rfl
      rw [this] at a2
      exact ⟨d, p, rfl, a1, a2⟩
    | _ :: _ :: _, _, _ => simp at hk
  · rintro ⟨d, p, rfl, h3, h4⟩
    match nss, hl with
    | [ns], _ =>
      obtain ⟨p', a1, a2, _⟩ := h 0 d ns rfl rfl
      rw [h3] at a1; cases a1
      rw [h4] at a2
      have : ns = [] := List.eq_nil_of_length_eq_zero (Option.some.inj a2).symm
      subst this
      exact ⟨_, rfl, List.Perm.swap _ _ _⟩

/-- **C27, counterexample.** Contents that begin with the number 1 and the number `x` have page `x` released, whoever it belongs to. -/
theorem delete_838_foreign (s : St) (o : Obj) (d x : Nat) (p : Bytes) (hb : o.blocks = [d]) (hn : o.numblocks = 1)
    (h1 : o.block ≠ 1) (h2 : o.block ≠ 2) (hp : s.pages[d]? = some p) (hw : Spec.word p 0 = some 1) (hx : Spec.word p 4 = some x) :
    deleteObject (σ := List Nat) (fun _ => s) record o [] = .ok [x, d, o.block] :=
  delete_calls_838 s o [d] hb hn h1 h2 [[x]] rfl (by
    intro i t ns ht hns
    cases i with
    | zero =>
      cases ht; cases hns
      refine ⟨p, hp, hw, ?_⟩
      intro j hj
      have : j = 0 := by simpa using hj
      subst this
      exact hx
    | succ i => simp at ht)

/-- **C27, counterexample for two-level objects.** A table of format 8.3.8 is a list of data pages: the number of the first one, `d`, is
taken for the number of the entries, so `d` is not released, and when there are fewer pages than that, page 0, the page with the header of the database, is. -/
theorem delete_838_two_level (s : St) (o : Obj) (t d : Nat) (ds : List Nat) (p : Bytes) (hb : o.blocks = [t]) (hn : o.numblocks = 1)
    (h1 : o.block ≠ 1) (h2 : o.block ≠ 2) (hp : s.pages[t]? = some p) (hw : Spec.word p 0 = some d)
    (hds : ∀ (j : Nat) (h : j < ds.length), Spec.word p (4 + 4 * j) = some ds[j])
    (hz : ∀ j, ds.length ≤ j → j < d → Spec.word p (4 + 4 * j) = some 0) (hle : ds.length < d) :
    deleteObject (σ := List Nat) (fun _ => s) record o [] = .ok (ds ++ List.replicate (d - ds.length) 0 ++ [t, o.block]) := by
  have := delete_calls_838 s o [t] hb hn h1 h2 [ds ++ List.replicate (d - ds.length) 0] rfl (by
    intro i t' ns ht hns
    cases i with
    | zero =>
      cases ht; cases hns
      have hll : (ds ++ List.replicate (d - ds.length) 0).length = d := by simp; omega
      refine ⟨p, hp, by rw [hll]; exact hw, ?_⟩
      intro j hj
      rw [hll] at hj
      rcases Nat.lt_or_ge j ds.length with hlt | hge
      · rw [List.getElem_append_left hlt]; exact hds j hlt
      · rw [List.getElem_append_right hge, List.getElem_replicate]; exact hz j hge hj
    | succ i => simp at ht)
  rw [this]
  simp

theorem freeEntries_past (s : St) (t : Nat) (p : Bytes) (hp : s.pages[t]? = some p) : ∀ (n j : Nat) (l : List Nat),
    p.length < 4 + 4 * (j + n) → 0 < n → freeEntries (fun _ => s) record t n j l = .ub
  | n + 1, j, l, hlen, _ => by
    rw [freeEntries]
    cases hw : Spec.word p (4 + 4 * j) with
    | none =>
      have : peek s t (4 + 4 * j) = .ub := by
        unfold peek
        rw [hp]
        show rd32 p (4 + 4 * j) = .ub
        cases hr : rd32 p (4 + 4 * j) with
        | ok v => rw [(rd32_word _ _ _).1 hr] at hw; cases hw
        | throw =>
          unfold rd32 at hr
          split at hr <;> cases hr
        | ub => rfl
      rw [this]
      rfl
    | some v =>
      simp only [peek_of_word hp hw, Outcome.ok_bind]
      unfold record
      simp only [Outcome.ok_bind]
      cases n with
      | zero =>
        exfalso
        have h3 : p[4 + 4 * j + 3]? = none := List.getElem?_eq_none (by omega)
        have hr := (rd32_word _ _ _).2 hw
        unfold rd32 at hr
        rw [h3] at hr
        split at hr
        · rename_i h; cases h
        · cases hr
      | succ n =>
        have := freeEntries_past s t p hp (n + 1) (j + 1) (l ++ [v]) (by omega) (by omega)
        unfold record at this
        exact this

/-- **C27, counterexample.** Contents that begin with a number greater than the number of words that follow on the page make the deletion
read beyond the page. -/
theorem delete_838_ub (s : St) (o : Obj) (d n : Nat) (ds : List Nat) (p : Bytes) (hb : o.blocks = d :: ds) (hn : 0 < o.numblocks)
    (h1 : o.block ≠ 1) (h2 : o.block ≠ 2) (hp : s.pages[d]? = some p) (hw : Spec.word p 0 = some n) (hbig : p.length < 4 + 4 * n) (hpos : 0 < n) :
    deleteObject (σ := List Nat) (fun _ => s) record o [] = .ub := by
  obtain ⟨k, hk⟩ : ∃ k, o.numblocks = k + 1 := ⟨o.numblocks - 1, by omega⟩
  unfold deleteObject
  rw [if_neg (by omega), hb, hk, List.take_succ_cons, freeTables]
  simp only [(getPage_ok _ _ _).mpr hp, peek_of_word hp hw, Outcome.ok_bind]
  rw [freeEntries_past s d p hp n 0 [] (by omega) hpos]
  rfl

/-! The hypotheses are met: a database with the data page 3 of the object on page 4. -/

def direct838 (page : Bytes) : St := { freshDb 3 with pages := [[], [], [], page, []] }

def direct838Obj : Obj := ⟨.data838, 4, 12, 0, 1, 0, [3], none, 0, 0, 1, 0, false⟩

example : deleteObject (σ := List Nat) (fun _ => direct838 [1, 0, 0, 0, 7, 0, 0, 0, 0, 0, 0, 0]) record direct838Obj [] = .ok [7, 3, 4] :=
  delete_838_foreign _ _ 3 7 _ rfl rfl (by decide) (by decide) rfl rfl rfl

example : deleteObject (σ := List Nat) (fun _ => direct838 [0, 0, 0, 0, 7, 0, 0, 0, 0, 0, 0, 0]) record direct838Obj [] = .ok [3, 4] :=
  delete_calls_838 _ _ [3] rfl rfl (by decide) (by decide) [[]] rfl (by
    intro i t ns ht hns
    cases i with
    | zero => cases ht; cases hns; exact ⟨_, rfl, rfl, by simp⟩
    | succ i => simp at ht)

example : deleteObject (σ := List Nat) (fun _ => direct838 [9, 0, 0, 0, 7, 0, 0, 0, 0, 0, 0, 0]) record direct838Obj [] = .ub :=
  delete_838_ub _ _ 3 9 [] _ rfl (by decide) (by decide) (by decide) rfl rfl (by decide) (by decide)

example : deleteObject (σ := List Nat) (fun _ => direct838 ([5, 0, 0, 0, 6, 0, 0, 0, 7, 0, 0, 0] ++ List.replicate 12 0)) record
    { direct838Obj with fatlevel := 1 } [] = .ok [6, 7, 0, 0, 0, 3, 4] :=
  delete_838_two_level _ _ 3 5 [6, 7] _ rfl rfl (by decide) (by decide) rfl rfl
    (by intro j hj; rcases j with _ | _ | j
        · rfl
        · rfl
        · simp at hj; omega)
    (by intro j h1 h2; rcases j with _ | _ | _ | _ | _ | j
        · simp at h1
        · simp at h1
        · rfl
        · rfl
        · rfl
        · omega) (by decide)

end Verif.Object
