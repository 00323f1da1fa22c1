import Verif.Index.TreeBytes

/-! # Lemmas: rows of pages -/

namespace Verif.Index
open Verif Blob

/-- What leaves and branch pages have in common. -/
structure Kind (c : Conf) {α : Type} (X : Bytes → Spec.Pg α → Option Nat → Option Nat → Prop) : Prop where
  links : ∀ {f p a b}, X f p a b → Spec.At (Spec.bytesOf c.P.pagesize f p.no) 4 4 (Spec.linkTo c a) ∧
    Spec.At (Spec.bytesOf c.P.pagesize f p.no) 8 4 (Spec.linkTo c b)
  relink : ∀ {f f' p a b a' b'}, X f p a b → 12 ≤ (Spec.bytesOf c.P.pagesize f p.no).length → Spec.linkTo c a' < 2 ^ 32 → Spec.linkTo c b' < 2 ^ 32 →
    Spec.bytesOf c.P.pagesize f' p.no = Spec.relinked (Spec.bytesOf c.P.pagesize f p.no) (le 4 (Spec.linkTo c a') ++ le 4 (Spec.linkTo c b')) → X f' p a' b'
  frame : ∀ {f f' p a b}, X f p a b → Spec.bytesOf c.P.pagesize f' p.no = Spec.bytesOf c.P.pagesize f p.no → X f' p a b

theorem isLeaf_relinked {p l : Bytes} {nums : List Nat} {nx nx' : Nat} (h : Spec.IsLeaf p nums nx) (hp : 12 ≤ p.length) (hl : l.length = 8)
    (hn : Spec.At (Spec.relinked p l) 8 4 nx') : Spec.IsLeaf (Spec.relinked p l) nums nx' := by
  obtain ⟨⟨f, hf, hb⟩, ⟨hc, hc'⟩, _, ⟨m, w, hm, hw, hw', hr⟩⟩ := h
  refine ⟨⟨f, at_relinked hf hp hl (.inl (by omega)), hb⟩, ⟨at_relinked hc hp hl (.inl (by omega)), hc'⟩, hn,
    ⟨m, w, at_relinked hm hp hl (.inr (by omega)), at_relinked hw hp hl (.inr (by omega)), hw', ?_⟩⟩
  intro i x hx
  obtain ⟨r, h1, h2⟩ := hr i x hx
  exact ⟨r, at_relinked h1 hp hl (.inr (by omega)), h2⟩

theorem leaf_kind (c : Conf) : Kind c (Spec.LeafAt c) where
  links h := ⟨h.prev, h.next⟩
  relink := by
    intro f f' p a b a' b' h hl ha hb hf
    have h8 : (le 4 (Spec.linkTo c a') ++ le 4 (Spec.linkTo c b')).length = 8 := by rw [List.length_append, le_length, le_length]
    obtain ⟨h1, h2⟩ := at_links hl ha hb
    rw [← hf] at h1 h2
    refine ⟨⟨?_, ?_⟩, h1, h2⟩
    · intro l hl8
      rw [hf, relinked_twice hl h8]
      exact h.holds.unpacks l hl8
    · obtain ⟨nx, hnx⟩ := h.holds.lists
      rw [hf]
      exact ⟨_, isLeaf_relinked hnx hl h8 (by rw [← hf]; exact h2)⟩
  frame := by
    intro f f' p a b h hf
    obtain ⟨h1, h2, h3⟩ := h
    exact ⟨by rw [hf]; exact h1, by rw [hf]; exact h2, by rw [hf]; exact h3⟩

theorem branch_kind (c : Conf) : Kind c (Spec.BranchAt c) where
  links := by
    rintro f p a b ⟨flags, rest, h1, h2, h3, h4, h5, h6, h7⟩
    rw [h7]
    refine ⟨⟨le 2 flags ++ le 2 p.ents.length, le 4 (Spec.linkTo c b) ++ (p.ents.flatMap (Spec.refBytes c) ++ rest), ?_, by simp only [List.length_append, le_length], h4⟩,
      ⟨le 2 flags ++ (le 2 p.ents.length ++ le 4 (Spec.linkTo c a)), p.ents.flatMap (Spec.refBytes c) ++ rest, ?_, by simp only [List.length_append, le_length], h5⟩⟩
    · simp only [List.append_assoc]
    · simp only [List.append_assoc]
  relink := by
    rintro f f' p a b a' b' ⟨flags, rest, h1, h2, h3, h4, h5, h6, h7⟩ _ ha hb hf
    refine ⟨flags, rest, h1, h2, h3, ha, hb, h6, ?_⟩
    rw [hf, h7]
    unfold Spec.relinked
    have e1 : le 2 flags ++ (le 2 p.ents.length ++ (le 4 (Spec.linkTo c a) ++ (le 4 (Spec.linkTo c b) ++ (p.ents.flatMap (Spec.refBytes c) ++ rest)))) =
      (le 2 flags ++ le 2 p.ents.length) ++ (le 4 (Spec.linkTo c a) ++ (le 4 (Spec.linkTo c b) ++ (p.ents.flatMap (Spec.refBytes c) ++ rest))) := by
      rw [List.append_assoc]
    have e2 : le 2 flags ++ (le 2 p.ents.length ++ (le 4 (Spec.linkTo c a) ++ (le 4 (Spec.linkTo c b) ++ (p.ents.flatMap (Spec.refBytes c) ++ rest)))) =
      (le 2 flags ++ (le 2 p.ents.length ++ (le 4 (Spec.linkTo c a) ++ le 4 (Spec.linkTo c b)))) ++ (p.ents.flatMap (Spec.refBytes c) ++ rest) := by
      simp only [List.append_assoc]
    have h1' : ∀ z : Bytes, ((le 2 flags ++ le 2 p.ents.length) ++ z).take 4 = le 2 flags ++ le 2 p.ents.length := fun z =>
      List.take_left' (by simp only [List.length_append, le_length])
    have h2' : ∀ z : Bytes, ((le 2 flags ++ (le 2 p.ents.length ++ (le 4 (Spec.linkTo c a) ++ le 4 (Spec.linkTo c b)))) ++ z).drop 12 = z := fun z =>
      List.drop_left' (by simp only [List.length_append, le_length])
    have h3' : List.take 4 (le 2 flags ++ (le 2 p.ents.length ++ (le 4 (Spec.linkTo c a) ++ (le 4 (Spec.linkTo c b) ++ (p.ents.flatMap (Spec.refBytes c) ++ rest))))) =
      le 2 flags ++ le 2 p.ents.length := by rw [e1]; exact h1' _
    have h4' : List.drop 12 (le 2 flags ++ (le 2 p.ents.length ++ (le 4 (Spec.linkTo c a) ++ (le 4 (Spec.linkTo c b) ++ (p.ents.flatMap (Spec.refBytes c) ++ rest))))) =
      p.ents.flatMap (Spec.refBytes c) ++ rest := by rw [e2]; exact h2' _
    rw [h3', h4']
    simp only [List.append_assoc]
  frame := by
    rintro f f' p a b ⟨flags, rest, h1, h2, h3, h4, h5, h6, h7⟩ hf
    exact ⟨flags, rest, h1, h2, h3, h4, h5, h6, hf.trans h7⟩

/-- The number of the page a row begins or ends with. -/
def firstNo {α : Type} (B : List (Spec.Pg α)) (next : Option Nat) : Option Nat := ((B.head?).map (·.no)).or next
def lastNo {α : Type} (prev : Option Nat) (A : List (Spec.Pg α)) : Option Nat := ((A.getLast?).map (·.no)).or prev

theorem lastNo_cons {α : Type} (prev : Option Nat) (p : Spec.Pg α) (A : List (Spec.Pg α)) : lastNo prev (p :: A) = lastNo (some p.no) A := by
  unfold lastNo
  cases A with
  | nil => rfl
  | cons q A =>
    rw [List.getLast?_cons_cons]
    cases h : (q :: A).getLast? with
    | none => rw [List.getLast?_eq_none_iff] at h; cases h
    | some x => rfl

theorem row_append {α : Type} {X : Spec.Pg α → Option Nat → Option Nat → Prop} (A B : List (Spec.Pg α)) (prev next : Option Nat) :
    Spec.Row X prev (A ++ B) next ↔ Spec.Row X prev A (firstNo B next) ∧ Spec.Row X (lastNo prev A) B next := by
  induction A generalizing prev with
  | nil => exact ⟨fun h => ⟨trivial, h⟩, fun h => h.2⟩
  | cons p A ih =>
    rw [List.cons_append, Spec.Row, Spec.Row, ih, lastNo_cons, and_assoc]
    have : ((A ++ B).head?.map (·.no)).or next = ((A.head?).map (·.no)).or (firstNo B next) := by
      unfold firstNo
      cases A with
      | nil => simp
      | cons q A => simp
    rw [this]

theorem row_frame {c : Conf} {α : Type} {X : Bytes → Spec.Pg α → Option Nat → Option Nat → Prop} (K : Kind c X) {f f' : Bytes}
    (A : List (Spec.Pg α)) (prev next : Option Nat) (h : Spec.Row (X f) prev A next)
    (hf : ∀ p ∈ A, Spec.bytesOf c.P.pagesize f' p.no = Spec.bytesOf c.P.pagesize f p.no) : Spec.Row (X f') prev A next := by
  induction A generalizing prev with
  | nil => trivial
  | cons p A ih =>
    exact ⟨K.frame h.1 (hf p (List.mem_cons_self ..)), ih _ h.2 (fun q hq => hf q (List.mem_cons_of_mem _ hq))⟩

theorem rows_frame {c : Conf} {f f' : Bytes} (bs : List (List (Spec.Pg Spec.Ref))) (leaves : List (Spec.Pg Entry)) (h : Spec.Rows c f bs leaves)
    (hf : ∀ n ∈ Spec.numbers bs leaves, Spec.bytesOf c.P.pagesize f' n = Spec.bytesOf c.P.pagesize f n) : Spec.Rows c f' bs leaves := by
  induction bs with
  | nil =>
    refine row_frame (leaf_kind c) leaves none none h ?_
    intro p hp
    exact hf _ (List.mem_append_right _ (List.mem_map.mpr ⟨p, hp, rfl⟩))
  | cons row bs ih =>
    obtain ⟨h1, h2, h3⟩ := h
    refine ⟨row_frame (branch_kind c) row none none h1 ?_, h2, ih h3 ?_⟩
    · intro p hp
      apply hf
      unfold Spec.numbers
      rw [List.map_cons, List.flatten_cons, List.append_assoc]
      exact List.mem_append_left _ (List.mem_map.mpr ⟨p, hp, rfl⟩)
    · intro n hn
      apply hf
      unfold Spec.numbers at hn ⊢
      rw [List.map_cons, List.flatten_cons, List.append_assoc]
      exact List.mem_append_right _ hn

/-- Links as bytes. -/
theorem page_links {p : Bytes} {a b : Nat} (h1 : Spec.At p 4 4 a) (h2 : Spec.At p 8 4 b) : p = Spec.relinked p (le 4 a ++ le 4 b) := by
  have e : (p.drop 4).take 8 = le 4 a ++ le 4 b := by
    obtain ⟨pre, post, g1, g2, _⟩ := h1
    obtain ⟨pre', post', g3, g4, _⟩ := h2
    have e1 : p.drop 4 = le 4 a ++ post := by rw [g1, List.drop_left' g2]
    have e2 : p.drop 8 = le 4 b ++ post' := by rw [g3, List.drop_left' g4]
    have e3 : p.drop 8 = post := by
      have : p.drop 8 = (p.drop 4).drop 4 := by rw [List.drop_drop]
      rw [this, e1, List.drop_left' (le_length 4 a)]
    rw [e1, ← e3, e2, ← List.append_assoc, List.take_left' (by rw [List.length_append, le_length, le_length])]
  rw [← e, relinked_self]

/-- Another next page. -/
theorem relink_next {p : Bytes} {a v : Nat} (h1 : Spec.At p 4 4 a) :
    p.take 8 ++ (le 4 v ++ p.drop (8 + (le 4 v).length)) = Spec.relinked p (le 4 a ++ le 4 v) := by
  have e8 : p.take 8 = p.take 4 ++ le 4 a := by
    obtain ⟨pre, post, g1, g2, _⟩ := h1
    rw [g1, ← List.append_assoc, List.take_left' (by rw [List.length_append, le_length, g2]), List.append_assoc, List.take_left' g2]
  rw [e8, le_length]
  unfold Spec.relinked
  simp only [List.append_assoc]

/-- Another previous page. -/
theorem relink_prev {p : Bytes} {b v : Nat} (h2 : Spec.At p 8 4 b) :
    p.take 4 ++ (le 4 v ++ p.drop (4 + (le 4 v).length)) = Spec.relinked p (le 4 v ++ le 4 b) := by
  have e8 : p.drop 8 = le 4 b ++ p.drop 12 := by
    obtain ⟨pre, post, g1, g2, _⟩ := h2
    have : p.drop 12 = (p.drop 8).drop 4 := by rw [List.drop_drop]
    rw [this, g1, List.drop_left' g2, List.drop_left' (le_length 4 b)]
  rw [le_length, e8]
  unfold Spec.relinked
  simp only [List.append_assoc]

theorem link_small {c : Conf} (hs : Spec.Sizes c) {f : Bytes} (hf : f.length < 2 ^ 32) {n : Nat} (hn : (n + 1) * c.P.pagesize ≤ f.length) :
    Spec.linkTo c (some n) < lastPage := by
  have h1 := hs.page.1
  rw [Nat.add_mul, Nat.one_mul] at hn
  have h2 : n * 1 ≤ n * c.P.pagesize := Nat.mul_le_mul_left _ (by omega)
  unfold Spec.linkTo lastPage
  dsimp only
  split <;> omega

theorem link_lt {c : Conf} (hs : Spec.Sizes c) {f : Bytes} (hf : f.length < 2 ^ 32) {n : Option Nat} (hn : ∀ m, n = some m → (m + 1) * c.P.pagesize ≤ f.length) :
    Spec.linkTo c n < 2 ^ 32 := by
  cases n with
  | none => show 4294967295 < 2 ^ 32; omega
  | some m => have := link_small hs hf (hn m rfl); unfold lastPage at this; omega

theorem link_offset {c : Conf} {f : Bytes} (hf : f.length < 2 ^ 32) {n d : Nat} (hn : (n + 1) * c.P.pagesize ≤ f.length)
    (hd : d < c.P.pagesize) : c.link (Spec.linkTo c (some n)) d = n * c.P.pagesize + d := by
  rw [Nat.add_mul, Nat.one_mul] at hn
  unfold Conf.link Spec.linkTo
  dsimp only
  split <;> exact Nat.mod_eq_of_lt (by omega)

theorem relink_last {c : Conf} {α : Type} {X : Bytes → Spec.Pg α → Option Nat → Option Nat → Prop} (K : Kind c X) (hs : Spec.Sizes c) {f : Bytes}
    (hf : f.length < 2 ^ 32) (A : List (Spec.Pg α)) (nx nx' : Option Nat) (h : Spec.Row (X f) none A nx)
    (hin : ∀ p ∈ A, (p.no + 1) * c.P.pagesize ≤ f.length) (hnd : (A.map (·.no)).Nodup) (h0 : ∀ p ∈ A, 0 < p.no) (hnx : Spec.linkTo c nx' < 2 ^ 32) (f1 : Bytes)
    (hf1 : f1 = if Spec.linkTo c (lastNo none A) = lastPage then f else setData f (c.link (Spec.linkTo c (lastNo none A)) 8) (le 4 (Spec.linkTo c nx'))) :
    Spec.Row (X f1) none A nx' ∧ Spec.Elsewhere c (A.map (·.no)) f f1 := by
  have hps := hs.page.1
  rcases List.eq_nil_or_concat A with rfl | ⟨A', a, rfl⟩
  · rw [if_pos (show Spec.linkTo c (lastNo none []) = lastPage from rfl)] at hf1
    subst hf1
    exact ⟨trivial, elsewhere_refl _ _ _⟩
  · rw [List.concat_eq_append] at *
    have hl : lastNo none (A' ++ [a]) = some a.no := by unfold lastNo; simp
    have ha := hin a (List.mem_append_right _ (List.mem_singleton.mpr rfl))
    rw [hl, if_neg (Nat.ne_of_lt (link_small hs hf ha)), link_offset hf ha (by omega)] at hf1
    have hb8 : 8 + (le 4 (Spec.linkTo c nx')).length ≤ c.P.pagesize := by rw [le_length]; omega
    have hE : Spec.Elsewhere c [a.no] f f1 := by rw [hf1]; exact elsewhere_set ha hb8
    refine ⟨?_, elsewhere_mono hE ?_⟩
    · rw [row_append] at h ⊢
      obtain ⟨g1, g2, _⟩ := h
      refine ⟨row_frame K A' _ _ g1 ?_, ?_, trivial⟩
      · intro p hp
        refine elsewhere_page (by omega) hE (h0 p (List.mem_append_left _ hp)) ?_
        rw [List.mem_singleton]
        intro hpa
        rw [List.map_append, List.nodup_append] at hnd
        exact hnd.2.2 p.no (List.mem_map.mpr ⟨p, hp, rfl⟩) a.no (by simp) hpa
      · obtain ⟨k1, k2⟩ := K.links g2
        have hlen := bytesOf_length ha
        have hbytes := bytesOf_set (o := 8) (b := le 4 (Spec.linkTo c nx')) ha hb8
        rw [← hf1, relink_next k1] at hbytes
        have hprev : Spec.linkTo c (lastNo none A') < 2 ^ 32 := by obtain ⟨_, _, _, _, q⟩ := k1; exact q
        exact K.relink g2 (by omega) hprev hnx hbytes
    · intro n hn
      rw [List.mem_singleton] at hn
      subst hn
      simp

theorem relink_first {c : Conf} {α : Type} {X : Bytes → Spec.Pg α → Option Nat → Option Nat → Prop} (K : Kind c X) (hs : Spec.Sizes c) {f : Bytes}
    (hf : f.length < 2 ^ 32) (B : List (Spec.Pg α)) (pv pv' : Option Nat) (h : Spec.Row (X f) pv B none)
    (hin : ∀ p ∈ B, (p.no + 1) * c.P.pagesize ≤ f.length) (hnd : (B.map (·.no)).Nodup) (h0 : ∀ p ∈ B, 0 < p.no) (hpv : Spec.linkTo c pv' < 2 ^ 32) (f1 : Bytes)
    (hf1 : f1 = if Spec.linkTo c (firstNo B none) = lastPage then f else setData f (c.link (Spec.linkTo c (firstNo B none)) 4) (le 4 (Spec.linkTo c pv'))) :
    Spec.Row (X f1) pv' B none ∧ Spec.Elsewhere c (B.map (·.no)) f f1 := by
  have hps := hs.page.1
  cases B with
  | nil =>
    rw [if_pos (show Spec.linkTo c (firstNo [] none) = lastPage from rfl)] at hf1
    subst hf1
    exact ⟨trivial, elsewhere_refl _ _ _⟩
  | cons b B =>
    have hl : firstNo (b :: B) none = some b.no := rfl
    have ha := hin b (List.mem_cons_self ..)
    rw [hl, if_neg (Nat.ne_of_lt (link_small hs hf ha)), link_offset hf ha (by omega)] at hf1
    have hb8 : 4 + (le 4 (Spec.linkTo c pv')).length ≤ c.P.pagesize := by rw [le_length]; omega
    have hE : Spec.Elsewhere c [b.no] f f1 := by rw [hf1]; exact elsewhere_set ha hb8
    obtain ⟨g2, g1⟩ := h
    refine ⟨⟨?_, row_frame K B _ _ g1 ?_⟩, elsewhere_mono hE ?_⟩
    · obtain ⟨k1, k2⟩ := K.links g2
      have hlen := bytesOf_length ha
      have hbytes := bytesOf_set (o := 4) (b := le 4 (Spec.linkTo c pv')) ha hb8
      rw [← hf1, relink_prev k2] at hbytes
      have hnext : Spec.linkTo c (((B.head?).map (·.no)).or none) < 2 ^ 32 := by obtain ⟨_, _, _, _, q⟩ := k2; exact q
      exact K.relink g2 (by omega) hpv hnext hbytes
    · intro p hp
      refine elsewhere_page (by omega) hE (h0 p (List.mem_cons_of_mem _ hp)) ?_
      rw [List.mem_singleton]
      intro hpa
      rw [List.map_cons, List.nodup_cons] at hnd
      exact hnd.1 (List.mem_map.mpr ⟨p, hp, hpa⟩)
    · intro n hn
      rw [List.mem_singleton] at hn
      subst hn
      simp

/-- A page is taken out of its row. -/
theorem free_row {c : Conf} {α : Type} {X : Bytes → Spec.Pg α → Option Nat → Option Nat → Prop} (K : Kind c X) (hs : Spec.Sizes c) {f : Bytes}
    (hf : f.length < 2 ^ 32) (A B : List (Spec.Pg α)) (p : Spec.Pg α) (h : Spec.Row (X f) none (A ++ p :: B) none)
    (hin : ∀ q ∈ A ++ p :: B, 0 < q.no ∧ (q.no + 1) * c.P.pagesize ≤ f.length) (hnd : ((A ++ p :: B).map (·.no)).Nodup) (page : Bytes)
    (hp4 : Spec.At page 4 4 (Spec.linkTo c (lastNo none A))) (hp8 : Spec.At page 8 4 (Spec.linkTo c (firstNo B none))) :
    ∃ r, freePage c f page (p.no * c.P.pagesize) = .ok r ∧ r.2.length = c.P.pagesize ∧
      Spec.Row (X (setData r.1 (p.no * c.P.pagesize) r.2)) none (A ++ B) none ∧
      Spec.Elsewhere c ((A ++ p :: B).map (·.no)) f (setData r.1 (p.no * c.P.pagesize) r.2) := by
  have hps := hs.page.1
  have hA : ∀ q ∈ A, q ∈ A ++ p :: B := fun q hq => List.mem_append_left _ hq
  have hB : ∀ q ∈ B, q ∈ A ++ p :: B := fun q hq => List.mem_append_right _ (List.mem_cons_of_mem _ hq)
  have hP : p ∈ A ++ p :: B := List.mem_append_right _ (List.mem_cons_self ..)
  have hnd' := hnd
  rw [List.map_append, List.map_cons, List.nodup_append, List.nodup_cons] at hnd'
  obtain ⟨ndA, ⟨npB, ndB⟩, ndAB⟩ := hnd'
  have hdAB : ∀ q ∈ A, q.no ∉ B.map (·.no) := fun q hq hm => ndAB q.no (List.mem_map.mpr ⟨q, hq, rfl⟩) q.no (List.mem_cons_of_mem _ hm) rfl
  have hdBA : ∀ q ∈ B, q.no ∉ A.map (·.no) := fun q hq hm => ndAB q.no hm q.no (List.mem_cons_of_mem _ (List.mem_map.mpr ⟨q, hq, rfl⟩)) rfl
  have hdAp : ∀ q ∈ A, q.no ≠ p.no := fun q hq hm => ndAB q.no (List.mem_map.mpr ⟨q, hq, rfl⟩) p.no (List.mem_cons_self ..) hm
  have hdBp : ∀ q ∈ B, q.no ≠ p.no := fun q hq hm => npB (List.mem_map.mpr ⟨q, hq, hm⟩)
  rw [row_append] at h
  obtain ⟨hrA, hrp, hrB⟩ := h
  have hlA : Spec.linkTo c (lastNo none A) < 2 ^ 32 := by obtain ⟨_, _, _, _, q⟩ := hp4; exact q
  have hlB : Spec.linkTo c (firstNo B none) < 2 ^ 32 := by obtain ⟨_, _, _, _, q⟩ := hp8; exact q
  -- first write
  obtain ⟨f1, hf1⟩ : ∃ f1, f1 = if Spec.linkTo c (lastNo none A) = lastPage then f else
    setData f (c.link (Spec.linkTo c (lastNo none A)) 8) (le 4 (Spec.linkTo c (firstNo B none))) := ⟨_, rfl⟩
  obtain ⟨a1, a2⟩ := relink_last K hs hf A _ (firstNo B none) hrA (fun q hq => (hin q (hA q hq)).2) ndA (fun q hq => (hin q (hA q hq)).1) hlB f1 hf1
  -- second write
  obtain ⟨f2, hf2⟩ : ∃ f2, f2 = if Spec.linkTo c (firstNo B none) = lastPage then f1 else
    setData f1 (c.link (Spec.linkTo c (firstNo B none)) 4) (le 4 (Spec.linkTo c (lastNo none A))) := ⟨_, rfl⟩
  have hrB1 : Spec.Row (X f1) (some p.no) B none :=
    row_frame K B _ _ hrB (fun q hq => elsewhere_page (by omega) a2 (hin q (hB q hq)).1 (hdBA q hq))
  have hf1l : f1.length = f.length := a2.1
  obtain ⟨b1, b2⟩ := relink_first K hs (by rw [hf1l]; exact hf) B _ (lastNo none A) hrB1 (fun q hq => by rw [hf1l]; exact (hin q (hB q hq)).2) ndB
    (fun q hq => (hin q (hB q hq)).1) hlA f2 hf2
  have hf2l : f2.length = f.length := by rw [b2.1, hf1l]
  have hpin := hin p hP
  have h4f : 4 ≤ f.length := by have := hpin.2; rw [Nat.add_mul, Nat.one_mul] at this; omega
  have hrA2 : Spec.Row (X f2) none A (firstNo B none) :=
    row_frame K A _ _ a1 (fun q hq => elsewhere_page (by omega) b2 (hin q (hA q hq)).1 (hdAB q hq))
  -- the head of the list of free pages
  obtain ⟨f3, hf3⟩ : ∃ f3, f3 = setData f2 0 (le 4 (p.no * c.P.pagesize / c.P.pagesize)) := ⟨_, rfl⟩
  have e3 : ∀ nos, Spec.Elsewhere c nos f2 f3 := fun nos => by rw [hf3]; exact elsewhere_head nos (le_length _ _) (by omega)
  obtain ⟨pg, hpg⟩ : ∃ pg, pg = (f2.drop 0).take 4 ++ List.replicate (c.P.pagesize - 4) 0 := ⟨_, rfl⟩
  have hpgl : pg.length = c.P.pagesize := by rw [hpg]; simp only [List.length_append, List.length_take, List.length_drop, List.length_replicate]; omega
  refine ⟨(f3, pg), ?_, hpgl, ?_⟩
  · unfold freePage
    rw [rd_at hp4, Outcome.ok_bind, rd_at hp8, Outcome.ok_bind]
    dsimp only
    rw [← hf1, ← hf2]
    have : getData f2 0 4 = .ok ((f2.drop 0).take 4) := if_pos (by omega)
    rw [this, Outcome.ok_bind, ← hf3, ← hpg]
  · have hpin3 : (p.no + 1) * c.P.pagesize ≤ f3.length := by rw [(e3 []).1, hf2l]; exact hpin.2
    have e4 : Spec.Elsewhere c [p.no] f3 (setData f3 (p.no * c.P.pagesize) pg) := by
      have := elsewhere_set (c := c) (o := 0) (b := pg) hpin3 (by omega)
      rwa [Nat.add_zero] at this
    have e24 : Spec.Elsewhere c [p.no] f2 (setData f3 (p.no * c.P.pagesize) pg) := elsewhere_trans (e3 _) e4
    dsimp only
    refine ⟨?_, ?_⟩
    · rw [row_append]
      constructor
      · refine row_frame K A _ _ hrA2 (fun q hq => elsewhere_page (by omega) e24 (hin q (hA q hq)).1 ?_)
        rw [List.mem_singleton]; exact hdAp q hq
      · refine row_frame K B _ _ b1 (fun q hq => elsewhere_page (by omega) e24 (hin q (hB q hq)).1 ?_)
        rw [List.mem_singleton]; exact hdBp q hq
    · refine elsewhere_trans (elsewhere_mono a2 ?_) (elsewhere_trans (elsewhere_mono b2 ?_) (elsewhere_mono e24 ?_))
      · intro n hn
        rw [List.map_append]; exact List.mem_append_left _ hn
      · intro n hn
        rw [List.map_append, List.map_cons]; exact List.mem_append_right _ (List.mem_cons_of_mem _ hn)
      · intro n hn
        rw [List.mem_singleton] at hn
        subst hn
        exact List.mem_map.mpr ⟨p, hP, rfl⟩

end Verif.Index
