import Verif.Index.TreeRows

/-! # Lemmas: branch pages -/

namespace Verif.Index
open Verif Blob

/-- The head of a branch page. -/
def hd (flags n a b : Nat) : Bytes := le 2 flags ++ (le 2 n ++ (le 4 a ++ le 4 b))

theorem hd_length (flags n a b : Nat) : (hd flags n a b).length = 12 := by
  unfold hd; simp only [List.length_append, le_length]

theorem branchAt_iff {c : Conf} {f : Bytes} {p : Spec.Pg Spec.Ref} {a b : Option Nat} : Spec.BranchAt c f p a b ↔
    ∃ flags rest, flags < 65536 ∧ flags.testBit 1 = false ∧ p.ents.length < 65536 ∧ Spec.linkTo c a < 2 ^ 32 ∧ Spec.linkTo c b < 2 ^ 32 ∧
    (∀ r ∈ p.ents, r.1.key.length = c.P.len ∧ r.1.num < 2 ^ 32) ∧
    Spec.bytesOf c.P.pagesize f p.no = hd flags p.ents.length (Spec.linkTo c a) (Spec.linkTo c b) ++ (p.ents.flatMap (Spec.refBytes c) ++ rest) := by
  unfold Spec.BranchAt hd
  simp only [List.append_assoc]

/-- All keys have the right length. -/
def Refs (c : Conf) (E : List Spec.Ref) : Prop := ∀ r ∈ E, r.1.key.length = c.P.len ∧ r.1.num < 2 ^ 32

theorem refBytes_length {c : Conf} {r : Spec.Ref} (h : r.1.key.length = c.P.len) : (Spec.refBytes c r).length = c.step := by
  unfold Spec.refBytes Conf.step
  simp only [List.length_append, List.length_reverse, le_length, h]

theorem flat_length {c : Conf} {E : List Spec.Ref} (h : Refs c E) : (E.flatMap (Spec.refBytes c)).length = E.length * c.step := by
  induction E with
  | nil => simp
  | cons r E ih =>
    rw [List.flatMap_cons, List.length_append, refBytes_length (h r (List.mem_cons_self ..)).1, ih (fun q hq => h q (List.mem_cons_of_mem _ hq)),
      List.length_cons, Nat.succ_mul, Nat.add_comm]

theorem refs_append {c : Conf} {A B : List Spec.Ref} : Refs c (A ++ B) ↔ Refs c A ∧ Refs c B := by
  unfold Refs
  constructor
  · intro h
    exact ⟨fun r hr => h r (List.mem_append_left _ hr), fun r hr => h r (List.mem_append_right _ hr)⟩
  · rintro ⟨h1, h2⟩ r hr
    rcases List.mem_append.mp hr with hr | hr
    · exact h1 r hr
    · exact h2 r hr

theorem refs_cons {c : Conf} {r : Spec.Ref} {B : List Spec.Ref} : Refs c (r :: B) ↔ (r.1.key.length = c.P.len ∧ r.1.num < 2 ^ 32) ∧ Refs c B := by
  unfold Refs
  simp only [List.mem_cons, forall_eq_or_imp]

/-- Searching a branch page. -/
theorem seek_none {c : Conf} {key : Bytes} (E : List Spec.Ref) (page pre rest : Bytes) (i : Nat) (hE : Refs c E)
    (hp : page = pre ++ (E.flatMap (Spec.refBytes c) ++ rest)) (hl : pre.length = c.slot i) (hb : ∀ r ∈ E, Spec.Before r.1.key key) :
    seek c page key E.length i = .ok none := by
  induction E generalizing pre i with
  | nil => rfl
  | cons r E ih =>
    obtain ⟨h1, h2⟩ := refs_cons.mp hE
    have hpk : peek page (c.slot i) c.P.len = .ok r.1.key := by
      rw [hp, List.flatMap_cons, Spec.refBytes, List.append_assoc, List.append_assoc]
      exact peek_append hl h1.1
    have hbr := hb r (List.mem_cons_self ..)
    rw [List.length_cons, seek, hpk, Outcome.ok_bind, if_neg (fun he => before_irrefl _ (by rw [he] at hbr; exact hbr)),
      if_neg (fun hl => before_irrefl _ (before_trans hbr ((lessB_iff _ _).mp hl)))]
    refine ih (pre ++ Spec.refBytes c r) (i + 1) h2 ?_ ?_ (fun q hq => hb q (List.mem_cons_of_mem _ hq))
    · rw [hp, List.flatMap_cons]; simp only [List.append_assoc]
    · rw [List.length_append, hl, refBytes_length h1.1]
      unfold Conf.slot
      rw [Nat.add_mul, Nat.one_mul, Nat.add_assoc]

theorem seek_some {c : Conf} {key : Bytes} (hk : key.length = c.P.len) (E1 : List Spec.Ref) (x : Spec.Ref) (E2 : List Spec.Ref) (page pre rest : Bytes) (i : Nat)
    (hE : Refs c (E1 ++ x :: E2)) (hp : page = pre ++ ((E1 ++ x :: E2).flatMap (Spec.refBytes c) ++ rest)) (hl : pre.length = c.slot i)
    (hb : ∀ r ∈ E1, Spec.Before r.1.key key) (hx : ¬ Spec.Before x.1.key key) :
    seek c page key (E1 ++ x :: E2).length i = .ok (some (i + E1.length, decide (key = x.1.key))) := by
  induction E1 generalizing pre i with
  | nil =>
    obtain ⟨h1, h2⟩ := refs_cons.mp hE
    have hpk : peek page (c.slot i) c.P.len = .ok x.1.key := by
      rw [hp, List.nil_append, List.flatMap_cons, Spec.refBytes, List.append_assoc, List.append_assoc]
      exact peek_append hl h1.1
    rw [List.nil_append, List.length_cons, seek, hpk, Outcome.ok_bind]
    by_cases he : key = x.1.key
    · rw [if_pos he, decide_eq_true he]; rfl
    · rw [if_neg he]
      have : lessB key x.1.key = true := by
        rw [lessB_iff]
        rcases before_total (a := key) (b := x.1.key) (by rw [hk, h1.1]) with h | h | h
        · exact h
        · exact absurd h he
        · exact absurd h hx
      rw [if_pos this, decide_eq_false he]; rfl
  | cons r E1 ih =>
    obtain ⟨h1, h2⟩ := refs_cons.mp hE
    have hpk : peek page (c.slot i) c.P.len = .ok r.1.key := by
      rw [hp, List.cons_append, List.flatMap_cons, Spec.refBytes, List.append_assoc, List.append_assoc]
      exact peek_append hl h1.1
    have hbr := hb r (List.mem_cons_self ..)
    rw [List.cons_append, List.length_cons, seek, hpk, Outcome.ok_bind, if_neg (fun he => before_irrefl _ (by rw [he] at hbr; exact hbr)),
      if_neg (fun hl => before_irrefl _ (before_trans hbr ((lessB_iff _ _).mp hl)))]
    rw [ih (pre ++ Spec.refBytes c r) (i + 1) h2 ?_ ?_ (fun q hq => hb q (List.mem_cons_of_mem _ hq))]
    · rw [List.length_cons, Nat.add_assoc, Nat.add_comm 1]
    · rw [hp, List.cons_append, List.flatMap_cons]; simp only [List.append_assoc]
    · rw [List.length_append, hl, refBytes_length h1.1]
      unfold Conf.slot
      rw [Nat.add_mul, Nat.one_mul, Nat.add_assoc]

theorem child_link (c : Conf) (no : Nat) : c.child (Spec.linkTo c (some no)) = no * c.P.pagesize := by
  unfold Conf.child Spec.linkTo
  dsimp only
  split <;> rfl

/-- A branch page in parts. -/
theorem branch_parts {c : Conf} (flags n a b : Nat) (E1 : List Spec.Ref) (x : Spec.Ref) (E2 : List Spec.Ref) (rest : Bytes) :
    hd flags n a b ++ ((E1 ++ x :: E2).flatMap (Spec.refBytes c) ++ rest) =
      (hd flags n a b ++ E1.flatMap (Spec.refBytes c)) ++ (Spec.refBytes c x ++ (E2.flatMap (Spec.refBytes c) ++ rest)) := by
  rw [List.flatMap_append, List.flatMap_cons]; simp only [List.append_assoc]

theorem parts_slot {c : Conf} (flags n a b : Nat) {E1 : List Spec.Ref} (h : Refs c E1) :
    (hd flags n a b ++ E1.flatMap (Spec.refBytes c)).length = c.slot E1.length := by
  rw [List.length_append, hd_length, flat_length h]; rfl

/-- The page below an entry. -/
theorem child_at {c : Conf} (flags n a b : Nat) (E1 : List Spec.Ref) (x : Spec.Ref) (E2 : List Spec.Ref) (rest : Bytes) (h : Refs c (E1 ++ x :: E2)) :
    peek (hd flags n a b ++ ((E1 ++ x :: E2).flatMap (Spec.refBytes c) ++ rest)) (c.slot E1.length + c.P.len + 4) 4 =
      .ok (le 4 (Spec.linkTo c (some x.2))).reverse := by
  obtain ⟨h1, h2⟩ := refs_append.mp h
  obtain ⟨h3, h4⟩ := refs_cons.mp h2
  rw [branch_parts, Spec.refBytes]
  have : (hd flags n a b ++ E1.flatMap (Spec.refBytes c)) ++ ((x.1.key ++ ((le 4 x.1.num).reverse ++ (le 4 (Spec.linkTo c (some x.2))).reverse)) ++ (E2.flatMap (Spec.refBytes c) ++ rest)) =
    ((hd flags n a b ++ E1.flatMap (Spec.refBytes c)) ++ (x.1.key ++ (le 4 x.1.num).reverse)) ++ ((le 4 (Spec.linkTo c (some x.2))).reverse ++ (E2.flatMap (Spec.refBytes c) ++ rest)) := by
    simp only [List.append_assoc]
  rw [this]
  apply peek_append
  · rw [List.length_append, parts_slot _ _ _ _ h1, List.length_append, h3.1, List.length_reverse, le_length, Nat.add_assoc]
  · rw [List.length_reverse, le_length]

/-- An entry gets another key and number. -/
theorem setRef_parts {c : Conf} (flags n a b : Nat) (E1 : List Spec.Ref) (x : Spec.Ref) (E2 : List Spec.Ref) (rest : Bytes) (h : Refs c (E1 ++ x :: E2))
    (e : Entry) (he : e.key.length = c.P.len) :
    setRef c (hd flags n a b ++ ((E1 ++ x :: E2).flatMap (Spec.refBytes c) ++ rest)) E1.length e =
      .ok (hd flags n a b ++ ((E1 ++ (e, x.2) :: E2).flatMap (Spec.refBytes c) ++ rest)) := by
  obtain ⟨h1, h2⟩ := refs_append.mp h
  obtain ⟨h3, h4⟩ := refs_cons.mp h2
  unfold setRef
  rw [branch_parts, Spec.refBytes, List.append_assoc x.1.key, poke_append (parts_slot _ _ _ _ h1) (by rw [h3.1, he]), Outcome.ok_bind]
  have : (hd flags n a b ++ E1.flatMap (Spec.refBytes c)) ++ (e.key ++ (((le 4 x.1.num).reverse ++ (le 4 (Spec.linkTo c (some x.2))).reverse) ++ (E2.flatMap (Spec.refBytes c) ++ rest))) =
    ((hd flags n a b ++ E1.flatMap (Spec.refBytes c)) ++ e.key) ++ ((le 4 x.1.num).reverse ++ ((le 4 (Spec.linkTo c (some x.2))).reverse ++ (E2.flatMap (Spec.refBytes c) ++ rest))) := by
    simp only [List.append_assoc]
  rw [this, poke_append (by rw [List.length_append, parts_slot _ _ _ _ h1, he]) (by rw [List.length_reverse, List.length_reverse, le_length, le_length])]
  rw [branch_parts, Spec.refBytes]
  simp only [List.append_assoc]

/-- The last entry. -/
theorem lastRef_parts {c : Conf} (flags n a b : Nat) (E1 : List Spec.Ref) (x : Spec.Ref) (rest : Bytes) (h : Refs c (E1 ++ [x])) :
    lastRef c (hd flags n a b ++ ((E1 ++ [x]).flatMap (Spec.refBytes c) ++ rest)) (E1.length + 1) = .ok x.1 := by
  obtain ⟨h1, h2⟩ := refs_append.mp h
  obtain ⟨h3, h4⟩ := refs_cons.mp h2
  unfold lastRef
  rw [branch_parts, Spec.refBytes, List.append_assoc x.1.key, Nat.add_sub_cancel, peek_append (parts_slot _ _ _ _ h1) h3.1, Outcome.ok_bind]
  have : ∀ z, (hd flags n a b ++ E1.flatMap (Spec.refBytes c)) ++ (x.1.key ++ (((le 4 x.1.num).reverse ++ (le 4 (Spec.linkTo c (some x.2))).reverse) ++ z)) =
    ((hd flags n a b ++ E1.flatMap (Spec.refBytes c)) ++ x.1.key) ++ ((le 4 x.1.num).reverse ++ ((le 4 (Spec.linkTo c (some x.2))).reverse ++ z)) := by
    intro z
    simp only [List.append_assoc]
  rw [this, peek_append (by rw [List.length_append, parts_slot _ _ _ _ h1, h3.1]) (by rw [List.length_reverse, le_length]), Outcome.ok_bind,
    ofLe_reverse_be 4 _ h3.2]

theorem poke_count (flags n m a b : Nat) (z : Bytes) : poke (hd flags n a b ++ z) 2 (le 2 m) = .ok (hd flags m a b ++ z) := by
  unfold hd
  have : (le 2 flags ++ (le 2 n ++ (le 4 a ++ le 4 b))) ++ z = le 2 flags ++ (le 2 n ++ ((le 4 a ++ le 4 b) ++ z)) := by simp only [List.append_assoc]
  rw [this, poke_append (le_length _ _) (by rw [le_length, le_length])]
  simp only [List.append_assoc]

/-- An entry is taken out. -/
theorem cutRef_parts {c : Conf} (flags a b : Nat) (E1 : List Spec.Ref) (x : Spec.Ref) (E2 : List Spec.Ref) (rest : Bytes) (h : Refs c (E1 ++ x :: E2))
    (hf : c.fwd = true ∨ E2.length < 2) :
    cutRef c (hd flags (E1 ++ x :: E2).length a b ++ ((E1 ++ x :: E2).flatMap (Spec.refBytes c) ++ rest)) (E1 ++ x :: E2).length E1.length =
      .ok (hd flags (E1 ++ E2).length a b ++ ((E1 ++ E2).flatMap (Spec.refBytes c) ++ (List.replicate c.step 0 ++ rest))) := by
  obtain ⟨h1, h2⟩ := refs_append.mp h
  obtain ⟨h3, h4⟩ := refs_cons.mp h2
  have hn : (E1 ++ x :: E2).length - 1 = (E1 ++ E2).length := by simp only [List.length_append, List.length_cons]; omega
  have hn2 : (E1 ++ E2).length = E1.length + E2.length := List.length_append
  unfold cutRef
  rw [hn, poke_count, Outcome.ok_bind]
  cases hE2 : E2 with
  | nil =>
    rw [List.append_nil, if_neg (Nat.lt_irrefl _), branch_parts]
    have := poke_append (a := hd flags E1.length a b ++ E1.flatMap (Spec.refBytes c)) (b := Spec.refBytes c x) (d := [].flatMap (Spec.refBytes c) ++ rest)
      (b' := List.replicate c.step 0) (parts_slot _ _ _ _ h1) (by rw [refBytes_length h3.1, List.length_replicate])
    rw [this]
    simp only [List.append_assoc, List.flatMap_nil, List.nil_append]
  | cons y E2' =>
    rw [← hE2]
    have hpos : 0 < E2.length := by rw [hE2]; exact Nat.succ_pos _
    rw [if_pos (by omega), if_neg (by
      rintro ⟨g1, g2⟩
      rcases hf with g | g
      · rw [g] at g1; cases g1
      · omega)]
    have hslot : (hd flags (E1 ++ E2).length a b ++ (E1 ++ [x]).flatMap (Spec.refBytes c)).length = c.slot (E1.length + 1) := by
      rw [parts_slot _ _ _ _ (refs_append.mpr ⟨h1, refs_cons.mpr ⟨h3, fun _ hh => (by cases hh)⟩⟩), List.length_append]; rfl
    have hpk : peek (hd flags (E1 ++ E2).length a b ++ ((E1 ++ x :: E2).flatMap (Spec.refBytes c) ++ rest)) (c.slot (E1.length + 1))
        (((E1 ++ E2).length - E1.length) * c.step) = .ok (E2.flatMap (Spec.refBytes c)) := by
      have e : hd flags (E1 ++ E2).length a b ++ ((E1 ++ x :: E2).flatMap (Spec.refBytes c) ++ rest) =
        (hd flags (E1 ++ E2).length a b ++ (E1 ++ [x]).flatMap (Spec.refBytes c)) ++ (E2.flatMap (Spec.refBytes c) ++ rest) := by
        rw [List.flatMap_append, List.flatMap_append, List.flatMap_cons, List.flatMap_cons, List.flatMap_nil, List.append_nil]; simp only [List.append_assoc]
      rw [e]
      exact peek_append hslot (by rw [flat_length h4, hn2, Nat.add_sub_cancel_left])
    rw [hpk, Outcome.ok_bind]
    -- the bytes at the place of the entry and after it, split the other way
    obtain ⟨u, v, huv, hu, hv⟩ : ∃ u v : Bytes, Spec.refBytes c x ++ E2.flatMap (Spec.refBytes c) = u ++ v ∧ u.length = (E2.flatMap (Spec.refBytes c)).length ∧ v.length = c.step := by
      refine ⟨(Spec.refBytes c x ++ E2.flatMap (Spec.refBytes c)).take (E2.flatMap (Spec.refBytes c)).length,
        (Spec.refBytes c x ++ E2.flatMap (Spec.refBytes c)).drop (E2.flatMap (Spec.refBytes c)).length, (List.take_append_drop _ _).symm, ?_, ?_⟩
      · rw [List.length_take, List.length_append]; omega
      · rw [List.length_drop, List.length_append, refBytes_length h3.1]; omega
    have e2 : hd flags (E1 ++ E2).length a b ++ ((E1 ++ x :: E2).flatMap (Spec.refBytes c) ++ rest) =
        (hd flags (E1 ++ E2).length a b ++ E1.flatMap (Spec.refBytes c)) ++ (u ++ (v ++ rest)) := by
      rw [branch_parts, ← List.append_assoc (Spec.refBytes c x), huv, List.append_assoc u v rest]
    rw [e2, poke_append (parts_slot _ _ _ _ h1) hu, Outcome.ok_bind]
    have e3 : (hd flags (E1 ++ E2).length a b ++ E1.flatMap (Spec.refBytes c)) ++ (E2.flatMap (Spec.refBytes c) ++ (v ++ rest)) =
        (hd flags (E1 ++ E2).length a b ++ (E1 ++ E2).flatMap (Spec.refBytes c)) ++ (v ++ rest) := by
      rw [List.flatMap_append]; simp only [List.append_assoc]
    rw [e3, poke_append (parts_slot _ _ _ _ (refs_append.mpr ⟨h1, h4⟩)) (by rw [hv, List.length_replicate])]
    simp only [List.append_assoc]

end Verif.Index
