import Verif.Format.Model
import Verif.Format.Spec
import Verif.TableOpen.Lemmas
import Verif.Tree.Theorems

/-! # Testing the stored streams: lemmas about texts -/

namespace Verif.Format
open Verif Verif.Container Verif.Format.Spec Verif.Unicode.Spec

theorem blank_iff (c : UInt8) : (c ≠ 13 && c ≠ 10 && c ≠ 9 && c ≠ 32) = !blank c := by
  unfold blank
  by_cases h1 : c = 13 <;> by_cases h2 : c = 10 <;> by_cases h3 : c = 9 <;> by_cases h4 : c = 32 <;> simp [h1, h2, h3, h4]

/-- The loop finds the beginning of the body. -/
theorem firstSymbol_spec : ∀ (s : Bytes) (i : Nat) (c0 : UInt8),
    (body s = [] → ((firstSymbol i c0 s).2 = c0 ∨ blank (firstSymbol i c0 s).2 = true)) ∧
    ∀ c r, body s = c :: r → firstSymbol i c0 s = (i + (s.length - (body s).length), c)
  | [], i, c0 => by
    refine ⟨fun _ => Or.inl rfl, fun c r h => ?_⟩
    cases h
  | d :: s, i, c0 => by
    unfold firstSymbol body
    rw [blank_iff, List.dropWhile_cons]
    cases hb : blank d with
    | false =>
      refine ⟨fun h => ?_, fun c r h => ?_⟩
      · simp at h
      · simp at h ⊢
        exact h.1
    | true =>
      have ih := firstSymbol_spec s (i + 1) d
      simp only [Bool.not_true, Bool.false_eq_true, if_false, if_true]
      refine ⟨fun h => ?_, fun c r h => ?_⟩
      · rcases ih.1 h with e | e
        · right; rw [e]; exact hb
        · exact Or.inr e
      · rw [ih.2 c r h]
        have hl : (body s).length ≤ s.length := (List.dropWhile_suffix _).length_le
        unfold body at hl
        simp only [List.length_cons, Prod.mk.injEq, and_true]
        unfold body
        omega

theorem drop_body (s : Bytes) : s.drop (s.length - (body s).length) = body s := by
  have h : s = s.takeWhile blank ++ body s := (List.takeWhile_append_dropWhile).symm
  have hl : s.length = (s.takeWhile blank).length + (body s).length := by
    rw [← List.length_append, ← h]
  rw [show s.length - (body s).length = (s.takeWhile blank).length by omega]
  generalize s.takeWhile blank = a at h ⊢
  generalize body s = b at h ⊢
  subst h
  exact List.drop_left

theorem excluded_length : EXCLUDED.length = 29 := by decide

theorem excluded_scalar : ∀ c ∈ "{ХАРАКТЕРИСТИКИ".toList.map Char.toNat, Scalar c := by
  unfold Scalar
  decide

theorem excluded_nonzero : ("{ХАРАКТЕРИСТИКИ".toList.map Char.toNat).takeWhile (· ≠ 0) = "{ХАРАКТЕРИСТИКИ".toList.map Char.toNat := by decide

/-- Fifteen bytes never are the fifteen letters. -/
theorem not_excluded (p : Bytes) (hp : p.length ≤ 15) (hw : Whole p) : Unicode.equalIC p EXCLUDED = .ok false := by
  obtain ⟨cps, hs, rfl⟩ := hw
  unfold Unicode.equalIC EXCLUDED
  rw [Unicode.lowerCase_spec cps hs, Unicode.lowerCase_spec _ excluded_scalar, excluded_nonzero]
  simp only [Outcome.ok_bind, Outcome.ok.injEq, decide_eq_false_iff_not]
  intro h
  have h1 := congrArg List.length h
  rw [Unicode.utf8Text_length_map Unicode.toLower Unicode.toLower_length, Unicode.utf8Text_length_map Unicode.toLower Unicode.toLower_length] at h1
  have h2 : (utf8Text ("{ХАРАКТЕРИСТИКИ".toList.map Char.toNat)).length = 29 := excluded_length
  have h3 : (utf8Text (cps.takeWhile (· ≠ 0))).length ≤ (utf8Text cps).length := by
    conv => rhs; rw [← List.takeWhile_append_dropWhile (p := (· ≠ 0)) (l := cps)]
    unfold utf8Text
    rw [List.flatMap_append, List.length_append]
    omega
  omega

theorem cut_throws (p : Bytes) (hw : ¬ Whole p) : Unicode.equalIC p EXCLUDED = .throw := by
  have h := Unicode.equalIC_invalid_throws p EXCLUDED (fun cps hs e => hw ⟨cps, hs, e⟩)
  cases e : Unicode.equalIC p EXCLUDED with
  | ok b => cases b
            · exact absurd e h.2
            · exact absurd e h.1
  | throw => rfl
  | ub => exact absurd e (TableOpen.equal_ne_ub _ _)

theorem chars_shown (t : Bytes) : Vendor.chars t = shown t := rfl

/-- What the test says of a text. -/
theorem testString_plain (t : Bytes) (h : ¬ Bracket t) : testString t = .ok true := by
  unfold testString
  obtain ⟨h1, h2⟩ := firstSymbol_spec t 0 0
  cases hb : body t with
  | nil =>
    have : (firstSymbol 0 0 t).2 ≠ 0x7B := by
      rcases h1 hb with e | e
      · rw [e]; decide
      · intro e'; rw [e'] at e; revert e; decide
    simp only
    rw [if_neg this]
  | cons c r =>
    rw [h2 c r hb]
    simp only
    rw [if_neg]
    intro e
    apply h
    unfold Bracket
    rw [hb, e]
    rfl

theorem testString_bracket (t : Bytes) (h : Bracket t) :
    testString t = (do
      if ← Unicode.equalIC ((body t).take 15) EXCLUDED then .ok true
      else do
        let _ ← Tree.parseText (shown t)
        .ok true) := by
  unfold testString
  obtain ⟨h1, h2⟩ := firstSymbol_spec t 0 0
  cases hb : body t with
  | nil => unfold Bracket at h; rw [hb] at h; cases h
  | cons c r =>
    have hc : c = 0x7B := by unfold Bracket at h; rw [hb] at h; simpa using h
    rw [h2 c r hb]
    simp only [Nat.zero_add]
    rw [if_pos hc, drop_body, hb]
    rfl

theorem testString_whole (t : Bytes) (h : Bracket t → Whole ((body t).take 15)) :
    (Parses t → testString t = .ok true) ∧ (¬ Parses t → testString t = .throw) := by
  by_cases hb : Bracket t
  · rw [testString_bracket t hb, not_excluded _ (by rw [List.length_take]; omega) (h hb)]
    simp only [Outcome.ok_bind, Bool.false_eq_true, if_false]
    rcases Tree.parse_never_leaves_tree (shown t) with ⟨r, e⟩ | e
    · rw [e]
      exact ⟨fun _ => rfl, fun hn => absurd (fun _ => ⟨r, e⟩) hn⟩
    · rw [e]
      refine ⟨fun hp => ?_, fun _ => rfl⟩
      obtain ⟨n, hn⟩ := hp hb
      rw [e] at hn; cases hn
  · rw [testString_plain t hb]
    exact ⟨fun _ => rfl, fun hn => absurd (fun hb' => absurd hb' hb) hn⟩

theorem testString_cut (t : Bytes) (h : Bracket t) (hw : ¬ Whole ((body t).take 15)) : testString t = .throw := by
  rw [testString_bracket t h, cut_throws _ hw]
  rfl

theorem testString_true {t : Bytes} {r : Bool} (h : testString t = .ok r) : r = true ∧ Parses t := by
  by_cases hb : Bracket t
  · by_cases hw : Whole ((body t).take 15)
    · by_cases hp : Parses t
      · rw [(testString_whole t (fun _ => hw)).1 hp] at h
        cases h; exact ⟨rfl, hp⟩
      · rw [(testString_whole t (fun _ => hw)).2 hp] at h; cases h
    · rw [testString_cut t hb hw] at h; cases h
  · rw [testString_plain t hb] at h
    cases h
    exact ⟨rfl, fun hb' => absurd hb' hb⟩

theorem testString_ne_ub (t : Bytes) : testString t ≠ .ub := by
  by_cases hb : Bracket t
  · by_cases hw : Whole ((body t).take 15)
    · by_cases hp : Parses t
      · rw [(testString_whole t (fun _ => hw)).1 hp]; simp
      · rw [(testString_whole t (fun _ => hw)).2 hp]; simp
    · rw [testString_cut t hb hw]; simp
  · rw [testString_plain t hb]; simp

/-! ## Marks and headers -/

theorem fromUtf16_ne_ub (us : List Nat) : Unicode.fromUtf16 us ≠ .ub := by
  fun_induction Unicode.fromUtf16 us with
  | case1 => simp
  | case2 => simp
  | case3 => simp
  | case4 => simp
  | case5 u t r _ _ ih => cases e : Unicode.fromUtf16 r <;> simp_all
  | case6 => simp
  | case7 => simp
  | case8 u t r _ _ ih => cases e : Unicode.fromUtf16 (t :: r) <;> simp_all

theorem toUtf8_cases (x : Bytes) (h : 2 ≤ x.length) : (∃ s, Unicode.toUtf8 x 2 = .ok s) ∨ Unicode.toUtf8 x 2 = .throw := by
  unfold Unicode.toUtf8 Unicode.utf16to8
  rw [if_neg (by omega)]
  cases e : Unicode.fromUtf16 (Unicode.unitsOf (x.drop 2)) with
  | throw => exact Or.inr rfl
  | ub => exact absurd e (fromUtf16_ne_ub _)
  | ok cps =>
    obtain ⟨h1, _⟩ := Unicode.fromUtf16_sound _ _ (Unicode.unitsOf_lt _) e
    rw [Outcome.ok_bind, Unicode.appendAll_spec cps h1]
    exact Or.inl ⟨_, rfl⟩

/-- A text behind a mark that begins neither as a header of a spreadsheet nor as one of a schema. -/
def testMarked (x : Bytes) : Outcome Bool :=
  if x.take 3 = [0xEF, 0xBB, 0xBF] then
    if x.length - 3 > 0 then testString (x.drop 3) else .ok true
  else if x.take 2 = [0xFF, 0xFE] then
    if x.length - 2 > 0 then do
      let s ← Unicode.toUtf8 x 2
      testString s
    else .ok true
  else .throw

theorem testText_eq (x : Bytes) : testText x = (do
    let x ← skipHeader x
    testMarked x) := rfl

theorem not_bracket_nil : ¬ Bracket [] := by unfold Bracket body; simp

theorem parses_nil : Parses [] := fun h => absurd h not_bracket_nil

theorem testString_nil : testString [] = .ok true := testString_plain [] not_bracket_nil

theorem testMarked_holds {x t : Bytes} (h : Holds x t) : testMarked x = testString t := by
  unfold testMarked
  cases h with
  | utf8 t =>
    rw [if_pos (by simp [mark8])]
    cases t with
    | nil => simp [mark8, testString_nil]
    | cons a t => simp [mark8]
  | utf16 cps hs =>
    have h3 : (mark16 ++ utf16Text cps).take 3 ≠ [0xEF, 0xBB, 0xBF] := by
      unfold mark16
      intro e
      have := congrArg List.head? e
      simp at this
    rw [if_neg h3, if_pos (by simp [mark16])]
    have := Unicode.utf16_to_utf8 cps hs mark16
    rw [show mark16.length = 2 from rfl] at this
    rw [this]
    cases cps with
    | nil => simp [mark16, utf16Text, utf8Text, testString_nil]
    | cons c cps =>
      rw [if_pos]
      · rfl
      · unfold utf16Text utf16 mark16
        rw [List.flatMap_cons]
        simp only [List.length_append, List.length_cons]
        split <;> simp [le16] <;> omega

theorem holds_length {x t : Bytes} (h : Holds x t) (ht : t ≠ []) : 4 ≤ x.length := by
  cases h with
  | utf8 t =>
    cases t with
    | nil => exact absurd rfl ht
    | cons a t => simp [mark8]
  | utf16 cps hs =>
    cases cps with
    | nil => exact absurd rfl ht
    | cons c cps =>
      unfold utf16Text utf16 mark16
      rw [List.flatMap_cons]
      simp only [List.length_append, List.length_cons]
      split <;> simp [le16] <;> omega

theorem holds_min {x t : Bytes} (h : Holds x t) : 2 ≤ x.length := by
  cases h with
  | utf8 t => simp [mark8]
  | utf16 cps hs => simp [mark16]

theorem holds_head {x t : Bytes} (h : Holds x t) : x.head? = some 0xEF ∨ x.head? = some 0xFF := by
  cases h with
  | utf8 t => exact Or.inl rfl
  | utf16 cps hs => exact Or.inr rfl

/-- A text is found behind its header. -/
theorem testText_stored {x t : Bytes} (h : Stored x t) (ht : t = [] → x.length ≠ 15) : testText x = testString t := by
  rw [testText_eq]
  cases h with
  | plain h =>
    have hh := holds_head h
    have hskip : skipHeader x = .ok x := by
      unfold skipHeader
      split
      · rw [if_neg, if_neg]
        · intro e
          have := congrArg List.head? e
          rw [List.head?_take] at this
          rcases hh with e | e <;> rw [e] at this <;> simp [SIG_SKD] at this
        · intro e
          have := congrArg List.head? e
          rw [List.head?_take, List.head?_take] at this
          rcases hh with e | e <;> rw [e] at this <;> simp [SIG_MOXCEL] at this
      · rfl
    rw [hskip, Outcome.ok_bind, testMarked_holds h]
  | @sheet hd y _ hp hl h =>
    have hy : 3 ≤ y.length := by
      by_cases he : t = []
      · have := ht he
        rw [List.length_append] at this
        have := holds_min h
        omega
      · have := holds_length h he
        omega
    have hskip : skipHeader (hd ++ y) = .ok y := by
      unfold skipHeader
      rw [if_pos (by rw [List.length_append]; omega), if_pos]
      · unfold skip
        rw [if_neg (by rw [List.length_append]; omega), if_neg (by rw [List.length_append]; omega), ← hl, List.drop_left]
      · obtain ⟨r, rfl⟩ := hp
        rw [List.take_take, List.append_assoc, show min 7 8 = (Spec.sheet).length from rfl, List.take_left]
        rfl
    rw [hskip, Outcome.ok_bind, testMarked_holds h]
  | @schema hd y _ hp hl h =>
    have hy := holds_min h
    have hskip : skipHeader (hd ++ y) = .ok y := by
      obtain ⟨r, rfl⟩ := hp
      unfold skipHeader
      rw [if_pos (by rw [List.length_append]; omega), if_neg, if_pos]
      · unfold skip
        rw [if_neg (by rw [List.length_append]; omega), if_neg (by rw [List.length_append]; omega), ← hl, List.drop_left]
      · rw [List.append_assoc, show 8 = (Spec.schema).length from rfl, List.take_left]
        rfl
      · rw [List.append_assoc, show 8 = (Spec.schema).length from rfl, List.take_left]
        decide
    rw [hskip, Outcome.ok_bind, testMarked_holds h]

theorem unitsOf_split : ∀ (b : Bytes), ∃ y tail, b = y ++ tail ∧ tail.length ≤ 1 ∧ y.length % 2 = 0 ∧ Unicode.unitsOf y = Unicode.unitsOf b
  | [] => ⟨[], [], rfl, by simp, rfl, rfl⟩
  | [a] => ⟨[], [a], rfl, by simp, rfl, rfl⟩
  | a :: c :: r => by
    obtain ⟨y, tail, h1, h2, h3, h4⟩ := unitsOf_split r
    refine ⟨a :: c :: y, tail, by rw [h1]; rfl, h2, by simp only [List.length_cons]; omega, ?_⟩
    simp only [Unicode.unitsOf, h4]

theorem testMarked_true {x : Bytes} {r : Bool} (h : testMarked x = .ok r) :
    r = true ∧ ∃ y tail t, x = y ++ tail ∧ tail.length ≤ 1 ∧ Holds y t ∧ Parses t := by
  unfold testMarked at h
  split at h
  · rename_i h3
    have hx : x = mark8 ++ x.drop 3 := by
      conv => lhs; rw [← List.take_append_drop 3 x, h3]
      rfl
    split at h
    · obtain ⟨hr, hp⟩ := testString_true h
      exact ⟨hr, x, [], x.drop 3, by simp, by simp, by conv => lhs; rw [hx]
                                                       exact .utf8 _, hp⟩
    · cases h
      rename_i hl
      refine ⟨rfl, x, [], x.drop 3, by simp, by simp, by conv => lhs; rw [hx]
                                                         exact .utf8 _, ?_⟩
      rw [List.drop_of_length_le (by omega)]
      exact parses_nil
  · split at h
    · rename_i _ h2
      have hx : x = mark16 ++ x.drop 2 := by
        conv => lhs; rw [← List.take_append_drop 2 x, h2]
        rfl
      have hlx : 2 ≤ x.length := by rw [hx]; simp [mark16]
      split at h
      · have key : Unicode.toUtf8 x 2 = Unicode.utf16to8 (Unicode.unitsOf (x.drop 2)) := by
          unfold Unicode.toUtf8
          rw [if_neg (by omega)]
        rw [key] at h
        unfold Unicode.utf16to8 at h
        cases e : Unicode.fromUtf16 (Unicode.unitsOf (x.drop 2)) with
        | throw => rw [e] at h; cases h
        | ub => rw [e] at h; cases h
        | ok cps =>
          obtain ⟨h1, h5⟩ := Unicode.fromUtf16_sound _ _ (Unicode.unitsOf_lt _) e
          rw [e, Outcome.ok_bind, Unicode.appendAll_spec cps h1, Outcome.ok_bind] at h
          obtain ⟨hr, hp⟩ := testString_true h
          obtain ⟨y, tail, hy1, hy2, hy3, hy4⟩ := unitsOf_split (x.drop 2)
          have hy : y = utf16Text cps := by
            rw [Unicode.utf16Text_units, ← h5, ← hy4, Unicode.unitsOf_inv y hy3]
          refine ⟨hr, mark16 ++ y, tail, utf8Text cps, by rw [List.append_assoc, ← hy1]; exact hx, hy2, ?_, hp⟩
          rw [hy]
          exact .utf16 cps h1
      · cases h
        rename_i hl
        refine ⟨rfl, x, [], [], by simp, by simp, ?_, parses_nil⟩
        have : x.drop 2 = [] := List.drop_of_length_le (by omega)
        rw [hx, this]
        exact .utf16 [] (by simp)
    · cases h

/-- What passes is a stored text, up to an odd last byte. -/
theorem testText_true {x : Bytes} {r : Bool} (h : testText x = .ok r) :
    r = true ∧ ∃ y tail t, x = y ++ tail ∧ tail.length ≤ 1 ∧ Stored y t ∧ Parses t := by
  rw [testText_eq] at h
  have skipped : ∀ n hd, skip n x = .ok hd → hd = x ∨ (n ≤ x.length ∧ hd = x.drop n) := by
    intro n hd he
    unfold skip at he
    split at he
    · cases he
    · split at he <;> cases he
      · exact Or.inl rfl
      · exact Or.inr ⟨by omega, rfl⟩
  have plain : ∀ (r : Bool), testMarked x = .ok r → r = true ∧ ∃ y tail t, x = y ++ tail ∧ tail.length ≤ 1 ∧ Stored y t ∧ Parses t := by
    intro r h
    obtain ⟨hr, y, tail, t, h1, h2, h3, h4⟩ := testMarked_true h
    exact ⟨hr, y, tail, t, h1, h2, .plain h3, h4⟩
  unfold skipHeader at h
  split at h
  · split at h
    · rename_i hl hm
      cases e : skip 13 x with
      | throw => rw [e] at h; cases h
      | ub => rw [e] at h; cases h
      | ok y =>
        rw [e, Outcome.ok_bind] at h
        rcases skipped 13 y e with rfl | ⟨hn, rfl⟩
        · exact plain r h
        · obtain ⟨hr, y, tail, t, h1, h2, h3, h4⟩ := testMarked_true h
          refine ⟨hr, x.take 13 ++ y, tail, t, by rw [List.append_assoc, ← h1, List.take_append_drop], h2, ?_, h4⟩
          refine .sheet ⟨(x.take 13).drop 7, ?_⟩ (by rw [List.length_take]; omega) h3
          have : Spec.sheet = (x.take 13).take 7 := by
            rw [List.take_take] at hm ⊢
            exact hm.symm
          rw [this, List.take_append_drop]
    · split at h
      · rename_i hl _ hm
        cases e : skip 24 x with
        | throw => rw [e] at h; cases h
        | ub => rw [e] at h; cases h
        | ok y =>
          rw [e, Outcome.ok_bind] at h
          rcases skipped 24 y e with rfl | ⟨hn, rfl⟩
          · exact plain r h
          · obtain ⟨hr, y, tail, t, h1, h2, h3, h4⟩ := testMarked_true h
            refine ⟨hr, x.take 24 ++ y, tail, t, by rw [List.append_assoc, ← h1, List.take_append_drop], h2, ?_, h4⟩
            refine .schema ⟨(x.take 24).drop 8, ?_⟩ (by rw [List.length_take]; omega) h3
            have : Spec.schema = (x.take 24).take 8 := by
              rw [List.take_take]
              exact hm.symm
            rw [this, List.take_append_drop]
      · exact plain r h
  · exact plain r h

theorem testMarked_ne_ub (x : Bytes) : testMarked x ≠ .ub := by
  unfold testMarked
  split
  · split
    · exact testString_ne_ub _
    · simp
  · split
    · rename_i _ h2
      split
      · rcases toUtf8_cases x (by omega) with ⟨s, e⟩ | e
        · rw [e]; exact testString_ne_ub s
        · rw [e]; simp
      · simp
    · simp

theorem testText_ne_ub (x : Bytes) : testText x ≠ .ub := by
  rw [testText_eq]
  have : ∀ n, (do let x ← skip n x; testMarked x) ≠ .ub := by
    intro n
    unfold skip
    split
    · simp
    · split
      · exact testMarked_ne_ub _
      · exact testMarked_ne_ub _
  unfold skipHeader
  split
  · split
    · exact this 13
    · split
      · exact this 24
      · exact testMarked_ne_ub _
  · exact testMarked_ne_ub _

theorem testText_fails {x : Bytes} (h : testText x ≠ .ok true) : testText x = .throw := by
  cases e : testText x with
  | ok r => rw [e, (testText_true e).1] at h; exact absurd rfl h
  | throw => rfl
  | ub => exact absurd e (testText_ne_ub x)

end Verif.Format
