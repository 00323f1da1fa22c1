import Verif.Index.TreeLeaf

/-! # Lemmas: the list of free pages -/

namespace Verif.Index
open Verif Blob

theorem at_zero {p : Bytes} {n : Nat} : Spec.At p 0 4 n ↔ p.take 4 = le 4 n ∧ n < 2 ^ 32 := by
  constructor
  · rintro ⟨pre, post, rfl, h2, h3⟩
    cases List.length_eq_zero_iff.mp h2
    exact ⟨by rw [List.nil_append, List.take_left' (le_length _ _)], h3⟩
  · rintro ⟨h1, h2⟩
    exact ⟨[], p.drop 4, by rw [← h1, List.nil_append, List.take_append_drop], rfl, h2⟩

theorem setData_take {f b : Bytes} {s : Nat} (h4 : 4 ≤ s) (h : s + b.length ≤ f.length) : (setData f s b).take 4 = f.take 4 := by
  apply List.ext_getElem?
  intro i
  by_cases hi : i < 4
  · rw [List.getElem?_take_of_lt hi, List.getElem?_take_of_lt hi, setData_get h, if_neg (by omega)]
  · rw [List.getElem?_eq_none (by rw [List.length_take]; omega), List.getElem?_eq_none (by rw [List.length_take]; omega)]

theorem write_take {c : Conf} (hs : Spec.Sizes c) {f page : Bytes} {no : Nat} (h0 : 0 < no) (h : (no + 1) * c.P.pagesize ≤ f.length)
    (hl : page.length = c.P.pagesize) : (setData f (no * c.P.pagesize) page).take 4 = f.take 4 := by
  have h1 := hs.page.1
  rw [Nat.add_mul, Nat.one_mul] at h
  have : 1 * c.P.pagesize ≤ no * c.P.pagesize := Nat.mul_le_mul_right _ h0
  exact setData_take (by omega) (by omega)

theorem link_take {c : Conf} (hs : Spec.Sizes c) {f : Bytes} (hf : f.length < 2 ^ 32) (o : Option Nat) (d v : Nat) (hd : d + 4 ≤ c.P.pagesize)
    (ho : ∀ m, o = some m → 0 < m ∧ (m + 1) * c.P.pagesize ≤ f.length) :
    (if Spec.linkTo c o = lastPage then f else setData f (c.link (Spec.linkTo c o) d) (le 4 v)).take 4 = f.take 4 ∧
    (if Spec.linkTo c o = lastPage then f else setData f (c.link (Spec.linkTo c o) d) (le 4 v)).length = f.length := by
  have h1 := hs.page.1
  cases o with
  | none => rw [if_pos (show Spec.linkTo c none = lastPage from rfl)]; exact ⟨rfl, rfl⟩
  | some m =>
    obtain ⟨h2, h3⟩ := ho m rfl
    rw [if_neg (Nat.ne_of_lt (link_small hs hf h3)), link_offset hf h3 (by omega)]
    rw [Nat.add_mul, Nat.one_mul] at h3
    have : 1 * c.P.pagesize ≤ m * c.P.pagesize := Nat.mul_le_mul_right _ h2
    exact ⟨setData_take (by omega) (by rw [le_length]; omega), setData_length (by rw [le_length]; omega)⟩

/-- The page that is taken out begins with the old head of the list, and is the new one. -/
theorem free_head {c : Conf} (hs : Spec.Sizes c) {f page : Bytes} (hf : f.length < 2 ^ 32) {no : Nat} (h0 : 0 < no) (hn : (no + 1) * c.P.pagesize ≤ f.length)
    (a b : Option Nat) (ha : ∀ m, a = some m → 0 < m ∧ (m + 1) * c.P.pagesize ≤ f.length) (hb : ∀ m, b = some m → 0 < m ∧ (m + 1) * c.P.pagesize ≤ f.length)
    (hp4 : Spec.At page 4 4 (Spec.linkTo c a)) (hp8 : Spec.At page 8 4 (Spec.linkTo c b)) {r : Bytes × Bytes}
    (h : freePage c f page (no * c.P.pagesize) = .ok r) :
    (setData r.1 (no * c.P.pagesize) r.2).take 4 = le 4 no ∧
      (Spec.bytesOf c.P.pagesize (setData r.1 (no * c.P.pagesize) r.2) no).take 4 = f.take 4 := by
  have hps := hs.page.1
  have hpos : 1 * c.P.pagesize ≤ no * c.P.pagesize := Nat.mul_le_mul_right _ h0
  have hn' := hn
  rw [Nat.add_mul, Nat.one_mul] at hn'
  unfold freePage at h
  rw [rd_at hp4, Outcome.ok_bind, rd_at hp8, Outcome.ok_bind] at h
  dsimp only at h
  obtain ⟨t1, l1⟩ := link_take hs hf a 8 (Spec.linkTo c b) (by omega) ha
  obtain ⟨f1, hf1⟩ : ∃ f1, f1 = if Spec.linkTo c a = lastPage then f else setData f (c.link (Spec.linkTo c a) 8) (le 4 (Spec.linkTo c b)) := ⟨_, rfl⟩
  rw [← hf1] at t1 l1 h
  obtain ⟨t2, l2⟩ := link_take hs (f := f1) (by rw [l1]; exact hf) b 4 (Spec.linkTo c a) (by omega) (by rw [l1]; exact hb)
  obtain ⟨f2, hf2⟩ : ∃ f2, f2 = if Spec.linkTo c b = lastPage then f1 else setData f1 (c.link (Spec.linkTo c b) 4) (le 4 (Spec.linkTo c a)) := ⟨_, rfl⟩
  rw [← hf2] at t2 l2 h
  have : getData f2 0 4 = .ok ((f2.drop 0).take 4) := if_pos (by omega)
  rw [this, Outcome.ok_bind] at h
  cases h
  dsimp only
  have hl : ((f2.drop 0).take 4 ++ List.replicate (c.P.pagesize - 4) (0 : Byte)).length = c.P.pagesize := by
    rw [List.length_append, List.length_replicate, List.length_take, List.length_drop]; omega
  have h3l : (setData f2 0 (le 4 (no * c.P.pagesize / c.P.pagesize))).length = f2.length := setData_length (by rw [le_length]; omega)
  constructor
  · rw [write_take hs h0 (by rw [h3l, l2, l1]; exact hn) hl, Nat.mul_div_cancel _ (by omega)]
    unfold setData
    rw [List.take_zero, List.nil_append, Nat.zero_sub, List.replicate_zero, List.nil_append, List.take_left' (le_length _ _)]
  · rw [bytesOf_write (by rw [h3l, l2, l1]; exact hn) hl, List.drop_zero, List.take_left' (by rw [List.length_take]; omega), t2, t1]

theorem freeFrom_frame {ps : Nat} {f f' : Bytes} (hl : f'.length = f.length) (ns : List Nat) (n : Nat) (h : Spec.FreeFrom ps f n ns)
    (hf : ∀ m ∈ ns, Spec.bytesOf ps f' m = Spec.bytesOf ps f m) : Spec.FreeFrom ps f' n ns := by
  induction ns generalizing n with
  | nil => exact h
  | cons m ns ih =>
    obtain ⟨h1, h2, h3, next, h4, h5⟩ := h
    refine ⟨h1, h2, by rw [hl]; exact h3, next, ?_, ih next h5 (fun q hq => hf q (List.mem_cons_of_mem _ hq))⟩
    rw [hf m (List.mem_cons_self ..)]; exact h4

theorem free_pos {ps : Nat} {f : Bytes} (ns : List Nat) (n : Nat) (h : Spec.FreeFrom ps f n ns) : ∀ m ∈ ns, 0 < m := by
  induction ns generalizing n with
  | nil => intro m hm; cases hm
  | cons k ns ih =>
    obtain ⟨h1, h2, h3, next, h4, h5⟩ := h
    intro m hm
    rcases List.mem_cons.mp hm with rfl | hm
    · exact h2
    · exact ih next h5 m hm

/-- Writing pages that are not free. -/
theorem free_keep {c : Conf} (hps : 4 ≤ c.P.pagesize) {f f' : Bytes} {nos ns : List Nat} (h : Spec.Free c f ns) (he : Spec.Elsewhere c nos f f') (ht : f'.take 4 = f.take 4)
    (hd : ∀ n ∈ ns, n ∉ nos) : Spec.Free c f' ns := by
  obtain ⟨n, h1, h2⟩ := h
  refine ⟨n, ?_, freeFrom_frame he.1 ns n h2 (fun m hm => elsewhere_page hps he (free_pos ns n h2 m hm) (hd m hm))⟩
  rw [at_zero] at h1 ⊢
  rw [ht]; exact h1

theorem free_push {c : Conf} (hps : 4 ≤ c.P.pagesize) {f f' : Bytes} {nos ns : List Nat} {no : Nat} (h : Spec.Free c f ns) (he : Spec.Elsewhere c nos f f')
    (ht : f'.take 4 = le 4 no) (hp : (Spec.bytesOf c.P.pagesize f' no).take 4 = f.take 4) (hd : ∀ n ∈ ns, n ∉ nos) (h0 : 0 < no) (hn : (no + 1) * c.P.pagesize ≤ f.length)
    (hs : no < 2 ^ 32) : Spec.Free c f' (no :: ns) := by
  obtain ⟨n, h1, h2⟩ := h
  rw [at_zero] at h1
  refine ⟨no, at_zero.mpr ⟨ht, hs⟩, rfl, h0, by rw [he.1]; exact hn, n, at_zero.mpr ⟨by rw [hp, h1.1], h1.2⟩, ?_⟩
  exact freeFrom_frame he.1 ns n h2 (fun m hm => elsewhere_page hps he (free_pos ns n h2 m hm) (hd m hm))

end Verif.Index
