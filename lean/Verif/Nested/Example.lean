import Verif.Nested.Theorems

/-! # A history that meets the hypotheses of `nested_contents_partial` -/

namespace Verif.Nested
open Verif Verif.Stream Verif.Container Verif.Container.Spec Verif.Nested.Spec Verif.Unicode Verif.Unicode.Spec

instance decNoDir (n : List Nat) : ∀ t, Decidable (noDir n t)
  | .nil => isTrue trivial
  | .file _ _ r => decNoDir n r
  | .dir m _ r => have := decNoDir n r; by unfold noDir; infer_instance

instance decNoFile (n : List Nat) : ∀ t, Decidable (noFile n t)
  | .nil => isTrue trivial
  | .file _ _ r => have := decNoFile n r; by unfold noFile; infer_instance
  | .dir _ _ r => decNoFile n r

instance decFree (n : List Nat) : ∀ path t, Decidable (Free t n path)
  | [], t => decNoDir n t
  | d :: ds, t => have := decFree n ds (sub d t); by unfold Free; infer_instance

instance decThrough : ∀ path t, Decidable (Through t path)
  | [], _ => isTrue trivial
  | d :: ds, t => have := decThrough ds (sub d t); by unfold Through; infer_instance

/-- Whether `FitsS` holds. -/
def fitsS (fuel : Nat) : Subs → Bool
  | .nil => true
  | .none r => fitsS fuel r
  | .some k i r => fitsS fuel i && (match flushSubs fuel i with
      | .ok (some (_, bi)) => decide (extent k.cat + flushCost plainCodec { k with ents := putBack k.ents bi } < LAST)
      | _ => true) && fitsS fuel r

theorem fitsS_iff (fuel : Nat) : ∀ su, fitsS fuel su = true → FitsS fuel su
  | .nil, _ => trivial
  | .none r, h => fitsS_iff fuel r h
  | .some k i r, h => by
    rw [fitsS, Bool.and_eq_true, Bool.and_eq_true] at h
    refine ⟨fitsS_iff fuel i h.1.1, ?_, fitsS_iff fuel r h.2⟩
    have h2 := h.1.2
    revert h2
    cases flushSubs fuel i with
    | throw => intro _; trivial
    | ub => intro _; trivial
    | ok r =>
      cases r with
      | none => intro _; trivial
      | some r => intro h2; exact of_decide_eq_true h2

/-- Whether `Fits` holds, without packing. -/
def fits (fuel : Nat) (n : Node) : Bool :=
  fitsS fuel n.subs && match flushSubs fuel n.subs with
    | .ok (some (_, bs)) => bs.all (fun x => match x with | some (b, _) => !b.isEmpty | none => true) &&
      decide (extent n.k.cat + flushCost plainCodec { n.k with ents := putBack n.k.ents bs } < LAST)
    | _ => true

theorem fits_iff (fuel : Nat) (n : Node) (h : fits fuel n = true) : Fits plainCodec fuel n := by
  unfold fits at h
  rw [Bool.and_eq_true] at h
  refine ⟨fitsS_iff fuel _ h.1, ?_⟩
  have h2 := h.2
  revert h2
  cases flushSubs fuel n.subs with
  | throw => intro _; trivial
  | ub => intro _; trivial
  | ok r =>
    cases r with
    | none => intro _; trivial
    | some r =>
      intro h2
      simp only [Bool.and_eq_true, List.all_eq_true] at h2
      refine ⟨?_, of_decide_eq_true h2.2⟩
      intro x hx
      have := h2.1 x hx
      match x with
      | none => trivial
      | some (b, m) =>
        refine (plain_packs b).2 ?_
        rintro rfl
        simp at this

instance decSensible (cd : Codec) (t : Tree) (op : Act) : Decidable (Sensible cd t op) := by
  cases op <;> unfold Sensible <;> infer_instance

/-- A content in an inner container; everything is closed; the content is replaced, another one stored in a container two levels down, and
one stored and removed beside them. -/
def sample : List Act :=
  [.put [[0x44]] [0x41] [1, 2, 3] 5, .reopen, .put [[0x64]] [0x61] [7] 7, .put [[0x44], [0x45]] [0x41] [8] 8, .put [] [0x42] [4] 6, .remove [] [0x62]]

example : sample.foldl effect .nil = .dir [0x44] (.file [0x41] [7] (.dir [0x45] (.file [0x41] [8] .nil) .nil)) .nil := by decide +kernel

/-- The outermost container after the first operation. -/
def first : Node := match step plainCodec LAST blankNode (.put [[0x44]] [0x41] [1, 2, 3] 5) with
  | .ok (some n) => n
  | _ => blankNode

theorem first_step : step plainCodec LAST blankNode (.put [[0x44]] [0x41] [1, 2, 3] 5) = .ok (some first) := by decide +kernel

theorem first_fits : fits LAST first = true := by decide +kernel

/-- Without flushing only the tree matters. -/
theorem allowed_tree (cd : Codec) (fuel : Nat) (ops : List Act) : ∀ (n : Node) (t : Tree),
    (∀ i, ∀ op, ops[i]? = some op → Sensible cd ((ops.take i).foldl effect t) op) → (∀ op ∈ ops, (∃ a b c d, op = .put a b c d) ∨ ∃ a b, op = .remove a b) →
    Allowed cd fuel n t ops := by
  induction ops with
  | nil => intro n t _ _; trivial
  | cons op ops ih =>
    intro n t h hk
    refine ⟨h 0 op rfl, ?_, ?_⟩
    · rcases hk op (by simp) with ⟨_, _, _, _, rfl⟩ | ⟨_, _, rfl⟩ <;> trivial
    · split
      · exact ih _ _ (fun i o ho => h (i + 1) o ho) (fun o ho => hk o (by simp [ho]))
      · trivial

theorem allowed_step {cd : Codec} {fuel : Nat} {n n' : Node} {t : Tree} {op : Act} {ops : List Act} (hs : Sensible cd t op) (hr : Roomy cd fuel n op)
    (he : step cd fuel n op = .ok (some n')) (h : Allowed cd fuel n' (effect t op) ops) : Allowed cd fuel n t (op :: ops) := by
  refine ⟨hs, hr, ?_⟩
  rw [he]
  exact h

theorem allowed_any {cd : Codec} {fuel : Nat} {n : Node} {t : Tree} {op : Act} {ops : List Act} (hs : Sensible cd t op) (hr : Roomy cd fuel n op)
    (h : ∀ n', Allowed cd fuel n' (effect t op) ops) : Allowed cd fuel n t (op :: ops) := by
  refine ⟨hs, hr, ?_⟩
  split
  · exact h _
  · trivial

theorem roomy_reopen {fuel : Nat} {n : Node} (h : fits fuel n = true) : Roomy plainCodec fuel n .reopen := fits_iff fuel n h

example : Allowed plainCodec LAST blankNode .nil sample := by
  refine allowed_step (n' := first) (by decide +kernel) trivial first_step (allowed_any trivial (roomy_reopen first_fits) ?_)
  intro n
  refine allowed_tree _ _ _ _ _ ?_ ?_
  · intro i op h
    match i, h with
    | 0, h => cases h; decide +kernel
    | 1, h => cases h; decide +kernel
    | 2, h => cases h; decide +kernel
    | 3, h => cases h; decide +kernel
  · intro op h
    simp only [List.mem_cons, List.not_mem_nil, or_false] at h
    rcases h with rfl | rfl | rfl | rfl
    · exact Or.inl ⟨_, _, _, _, rfl⟩
    · exact Or.inl ⟨_, _, _, _, rfl⟩
    · exact Or.inl ⟨_, _, _, _, rfl⟩
    · exact Or.inr ⟨_, _, rfl⟩

end Verif.Nested
