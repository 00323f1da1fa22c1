import Verif.Tree.Lemmas

/-! # Property theorems: bracket trees (C41, C42, C43) -/

namespace Verif.Tree
open Verif Text

/-! ## C41: printing and parsing -/

/-- **C41.** Parsing the text produced for a tree gives the tree back: same nesting,
types and values. The root carries one node, which is not the empty leaf. The two
excluded nestings and a root with several nodes are shown below to be lost. -/
theorem print_parse_partial (n : Node) (h : Spec.WellFormed n) (hne : n ≠ .mk .empty [] []) :
    parseText (outtext (.list [n])) = .ok (.list [n]) := by
  simp only [outtext, Node.kids, out_eq, List.nil_append, parseText, start]
  obtain ⟨s, hs, ha⟩ := run_body n (List.isEmpty ([] : Str)) [] [] [] h
  rw [hs]
  simp only [Outcome.ok_bind]
  cases ha with
  | list => rfl
  | string => rfl
  | @token t v ht =>
    obtain ⟨_, _, _, _, hcl⟩ := ht
    simp only [finish, hcl, addChild, Outcome.ok_bind, finishTree, List.nil_append]
  | empty => exact absurd rfl hne

/-- A tree that meets the hypotheses: `{1,"a""b",{,4f2c…},#base64:QUI=}`. -/
def sampleTree : Node :=
  .list [.leaf .number ['1'], .leaf .string ['a', '"', 'b'], .list [.leaf .empty [], .leaf .binary2 ['Q', '=']],
    .leaf .empty []]

example : Spec.WellFormed sampleTree ∧ sampleTree ≠ .mk .empty [] [] := by
  refine ⟨?_, by simp [sampleTree]⟩
  apply Spec.WellFormed.list
  · intro n hn
    simp only [List.mem_cons, List.not_mem_nil, or_false] at hn
    rcases hn with rfl | rfl | rfl | rfl
    · exact .token ⟨by simp, by simp, by simp, by simp, by decide +kernel⟩
    · exact .string _
    · apply Spec.WellFormed.list
      · intro n hn
        simp only [List.mem_cons, List.not_mem_nil, or_false] at hn
        rcases hn with rfl | rfl
        · exact .empty
        · exact .token ⟨by simp, by simp, by simp, by simp, by decide +kernel⟩
      · trivial
    · exact .empty
  · trivial

/-- Two different well-formed trees never print the same text. -/
theorem print_injective (a b : Node) (ha : Spec.WellFormed a) (hb : Spec.WellFormed b)
    (ha' : a ≠ .mk .empty [] []) (hb' : b ≠ .mk .empty [] [])
    (h : outtext (.list [a]) = outtext (.list [b])) : a = b := by
  have h1 := print_parse_partial a ha ha'
  have h2 := print_parse_partial b hb hb'
  rw [h, h2] at h1
  simp at h1
  exact h1.symm

/-- **C41 fails** for a list without children: it is printed as nothing and comes back
as the empty value. -/
theorem empty_list_lost :
    parseText (outtext (.list [.list [.list [], .leaf .number ['1']]]))
      = .ok (.list [.list [.leaf .empty [], .leaf .number ['1']]]) := by rfl

/-- **C41 fails** for a list whose only child is empty: it comes back without children. -/
theorem single_empty_lost :
    parseText (outtext (.list [.list [.leaf .empty []]])) = .ok (.list [.list []]) := by rfl

/-- **C41 fails** for a second node under the root: it is never printed. -/
theorem second_root_lost (a b : Node) (ks : List Node) : outtext (.list (a :: b :: ks)) = outtext (.list [a]) := rfl

/-- **C41 fails** for a value that begins with a line break, although the value is
classified as binary data. -/
theorem leading_blank_lost :
    classify ['\n', 'a'] = .binary2 ∧
    parseText (outtext (.list [.leaf .binary2 ['\n', 'a']])) = .ok (.list [.leaf .binary2 ['a']]) := by
  constructor <;> rfl

/-! ## C42: balanced input only -/

theorem scan_append (a b : Str) (q : Bool) (d : Nat) :
    Spec.scan (a ++ b) q d = (Spec.scan a q d).bind fun r => Spec.scan b r.1 r.2 := by
  induction a generalizing q d with
  | nil => simp [Spec.scan]
  | cons c a ih =>
    cases q with
    | true => simp only [List.cons_append, Spec.scan]; exact ih _ _
    | false =>
      simp only [List.cons_append, Spec.scan]
      split
      · exact ih _ _
      · split
        · exact ih _ _
        · split
          · split
            · rfl
            · exact ih _ _
          · exact ih _ _

theorem scan_plain (s : Str) (d : Nat) (h : ∀ c ∈ s, c ∉ special) : Spec.scan s false d = some (false, d) := by
  induction s with
  | nil => rfl
  | cons c s ih =>
    have hc := h c (by simp)
    simp only [special, List.mem_cons, not_or] at hc
    simp only [Spec.scan]
    rw [if_neg hc.2.2.2.1, if_neg hc.2.1, if_neg hc.2.2.1]
    exact ih (fun d hd => h d (by simp [hd]))

/-- What has been read so far, seen by the scanner. -/
def Inv (pre : Str) (s : PSt) : Prop :=
  s.stack ≠ [] ∧
  match s.mode with
  | .value | .delimiter | .quoteOrEnd => Spec.scan pre false 0 = some (false, s.stack.length - 1)
  | .string => Spec.scan pre false 0 = some (true, s.stack.length - 1)
  | .nonstring => ∃ p, pre = p ++ s.cur ∧ Spec.scan p false 0 = some (false, s.stack.length - 1)

theorem addChild_ok {st : List (List Node)} {n : Node} {st'} (h : addChild st n = .ok st') :
    st' ≠ [] ∧ st'.length = st.length := by
  cases st with
  | nil => cases h
  | cons a b => simp only [addChild, Outcome.ok.injEq] at h; subst h; simp

theorem close_ok {st : List (List Node)} {st'} (h : close st = .ok st') :
    st' ≠ [] ∧ st'.length + 1 = st.length ∧ st'.length - 1 + 1 = st.length - 1 := by
  cases st with
  | nil => cases h
  | cons a b =>
    cases b with
    | nil => cases h
    | cons c d => simp only [close, Outcome.ok.injEq] at h; subst h; simp

theorem closeValue_ok {st : List (List Node)} {st'} (h : closeValue st = .ok st') :
    st' ≠ [] ∧ st'.length - 1 + 1 = st.length - 1 := by
  cases st with
  | nil => cases h
  | cons a b =>
    cases a with
    | nil => simp only [closeValue] at h; exact ⟨(close_ok h).1, (close_ok h).2.2⟩
    | cons x y =>
      simp only [closeValue, addChild, Outcome.ok_bind] at h
      have := close_ok h
      simp at this ⊢
      exact ⟨this.1, by omega⟩

theorem bind_ok {α β : Type} {x : Outcome α} {f : α → Outcome β} {b : β} (h : (x >>= f) = .ok b) :
    ∃ a, x = .ok a ∧ f a = .ok b := by
  cases x with
  | ok a => exact ⟨a, rfl, h⟩
  | throw => cases h
  | ub => cases h

theorem addClassified_ok {cur : Str} {st : List (List Node)} {st'} (h : addClassified cur st = .ok st') :
    classify cur ≠ .unknown ∧ st' ≠ [] ∧ st'.length = st.length := by
  unfold addClassified at h
  split at h
  · cases h
  · rename_i hu; exact ⟨hu, addChild_ok h⟩

theorem scan_blank (c : Char) (h : isBlank c = true) (d : Nat) : Spec.scan [c] false d = some (false, d) := by
  simp only [isBlank, Bool.or_eq_true, beq_iff_eq] at h
  rcases h with ((rfl | rfl) | rfl) | rfl <;> rfl

theorem step_inv (pre : Str) (s s' : PSt) (c : Char) (hn : '\x00' ∉ pre) (h : Inv pre s)
    (hs : step s c = .ok s') : Inv (pre ++ [c]) s' := by
  obtain ⟨mode, cur, stack⟩ := s
  obtain ⟨hne, hinv⟩ := h
  have tok : ∀ p, pre = p ++ cur → Spec.scan p false 0 = some (false, stack.length - 1) →
      classify cur ≠ .unknown → Spec.scan pre false 0 = some (false, stack.length - 1) := by
    intro p hp hsc hu
    rw [hp, scan_append, hsc]
    simp only [Option.bind_some]
    apply scan_plain
    exact classify_uses cur (fun h0 => hn (by rw [hp]; simp [h0])) hu
  cases mode with
  | value =>
    simp only at hinv
    simp only [step] at hs
    split at hs
    · rename_i hb
      cases hs
      exact ⟨hne, by simp only; rw [scan_append, hinv]; exact scan_blank c hb _⟩
    · split at hs
      · rename_i hc; subst hc; cases hs
        exact ⟨hne, by simp only; rw [scan_append, hinv]; rfl⟩
      · split at hs
        · rename_i hc; subst hc; cases hs
          refine ⟨by simp, ?_⟩
          simp only
          rw [scan_append, hinv]
          have : stack.length ≠ 0 := by simpa using hne
          simp only [Option.bind_some, Spec.scan]
          simp only [List.length_cons]
          rw [if_neg (by decide), if_pos trivial]
          congr 2; omega
        · split at hs
          · rename_i hc; subst hc
            obtain ⟨st, h1, h2⟩ := bind_ok hs
            cases h2
            have hcv := closeValue_ok h1
            refine ⟨hcv.1, ?_⟩
            simp only
            rw [scan_append, hinv]
            simp only [Option.bind_some, Spec.scan]
            rw [if_neg (by decide), if_neg (by decide), if_pos trivial, if_neg (by omega)]
            congr 2; omega
          · split at hs
            · rename_i hc; subst hc
              obtain ⟨st, h1, h2⟩ := bind_ok hs
              cases h2
              have := addChild_ok h1
              refine ⟨this.1, ?_⟩
              simp only
              rw [scan_append, hinv, this.2]; rfl
            · cases hs
              exact ⟨hne, pre, rfl, hinv⟩
  | delimiter =>
    simp only at hinv
    simp only [step] at hs
    split at hs
    · rename_i hb
      cases hs
      exact ⟨hne, by simp only; rw [scan_append, hinv]; exact scan_blank c hb _⟩
    · split at hs
      · rename_i hc; subst hc; cases hs
        exact ⟨hne, by simp only; rw [scan_append, hinv]; rfl⟩
      · split at hs
        · rename_i hc; subst hc
          obtain ⟨st, h1, h2⟩ := bind_ok hs
          cases h2
          have hcv := close_ok h1
          refine ⟨hcv.1, ?_⟩
          simp only
          rw [scan_append, hinv]
          simp only [Option.bind_some, Spec.scan]
          rw [if_neg (by decide), if_neg (by decide), if_pos trivial, if_neg (by omega)]
          congr 2; omega
        · cases hs
  | string =>
    simp only at hinv
    simp only [step] at hs
    split at hs
    · rename_i hc; subst hc; cases hs
      exact ⟨hne, by simp only; rw [scan_append, hinv]; rfl⟩
    · rename_i hc
      cases hs
      refine ⟨hne, ?_⟩
      simp only
      rw [scan_append, hinv]
      simp [Spec.scan, hc]
  | quoteOrEnd =>
    simp only at hinv
    simp only [step] at hs
    split at hs
    · rename_i hc; subst hc; cases hs
      exact ⟨hne, by simp only; rw [scan_append, hinv]; rfl⟩
    · replace ⟨st, h1, hs⟩ := bind_ok hs
      have ha := addChild_ok h1
      split at hs
      · rename_i hb
        cases hs
        exact ⟨ha.1, by simp only; rw [scan_append, hinv, ha.2]; exact scan_blank c hb _⟩
      · split at hs
        · rename_i hc; subst hc; cases hs
          exact ⟨ha.1, by simp only; rw [scan_append, hinv, ha.2]; rfl⟩
        · split at hs
          · rename_i hc; subst hc
            replace ⟨st2, h2, hs⟩ := bind_ok hs
            cases hs
            have hcv := close_ok h2
            refine ⟨hcv.1, ?_⟩
            simp only
            rw [scan_append, hinv]
            simp only [Option.bind_some, Spec.scan]
            rw [if_neg (by decide), if_neg (by decide), if_pos trivial, if_neg (by omega)]
            congr 2; omega
          · cases hs
  | nonstring =>
    simp only at hinv
    obtain ⟨p, hp, hsc⟩ := hinv
    simp only [step] at hs
    split at hs
    · rename_i hc; subst hc
      replace ⟨st, h1, hs⟩ := bind_ok hs
      cases hs
      have ha := addClassified_ok h1
      refine ⟨ha.2.1, ?_⟩
      simp only
      rw [scan_append, tok p hp hsc ha.1, ha.2.2]; rfl
    · split at hs
      · rename_i hc; subst hc
        replace ⟨st, h1, hs⟩ := bind_ok hs
        replace ⟨st2, h2, hs⟩ := bind_ok hs
        cases hs
        have ha := addClassified_ok h1
        have hcv := close_ok h2
        refine ⟨hcv.1, ?_⟩
        simp only
        rw [scan_append, tok p hp hsc ha.1]
        simp only [Option.bind_some, Spec.scan]
        rw [if_neg (by decide), if_neg (by decide), if_pos trivial, if_neg (by omega)]
        congr 2; omega
      · cases hs
        exact ⟨hne, p, by simp [hp], hsc⟩

theorem run_inv (s : Str) (pre : Str) (st st' : PSt) (hn : '\x00' ∉ pre ++ s) (h : Inv pre st)
    (hr : run st s = .ok st') : Inv (pre ++ s) st' := by
  induction s generalizing pre st with
  | nil => simp only [run, Outcome.ok.injEq] at hr; subst hr; simpa using h
  | cons c s ih =>
    simp only [run] at hr
    obtain ⟨st1, h1, h2⟩ := bind_ok hr
    have := ih (pre ++ [c]) st1 (by simpa using hn)
      (step_inv pre st st1 c (fun h0 => hn (by simp [h0])) h h1) h2
    simpa using this

/-- **C42.** Whatever text is accepted — without NUL characters, and without the parser
having met a value it could not classify — has balanced brackets and closed strings.
Equivalently, anything else is reported as an error. -/
theorem accepted_is_balanced_partial (s : Str) (r : Node) (hn : '\x00' ∉ s) (h : parseText s = .ok r)
    (hu : ¬ Spec.HasUnknown r) : Spec.Balanced s := by
  obtain ⟨st, h1, h2⟩ := bind_ok h
  have hinv := run_inv s [] start st (by simpa using hn) ⟨by simp [start], rfl⟩ h1
  simp only [List.nil_append] at hinv
  obtain ⟨mode, cur, stack⟩ := st
  obtain ⟨hne, hm⟩ := hinv
  have fin : ∀ st', finishTree st' = .ok r → st'.length = stack.length → stack.length - 1 = 0 ∧
      ∃ ks, r = .list ks ∧ st' = [ks] := by
    intro st' hf hl
    cases st' with
    | nil => cases hf
    | cons a b =>
      cases b with
      | nil =>
        simp only [finishTree, Outcome.ok.injEq] at hf
        simp at hl
        exact ⟨by omega, a, hf.symm, rfl⟩
      | cons c d => cases hf
  cases mode with
  | value => cases h2
  | string => cases h2
  | delimiter =>
    have := fin stack h2 rfl
    simp only at hm
    rw [this.1] at hm
    exact hm
  | quoteOrEnd =>
    obtain ⟨st', h3, h4⟩ := bind_ok h2
    have := fin st' h4 (addChild_ok h3).2
    simp only at hm
    rw [this.1] at hm
    exact hm
  | nonstring =>
    obtain ⟨st', h3, h4⟩ := bind_ok h2
    obtain ⟨hl, ks, hr, hst⟩ := fin st' h4 (addChild_ok h3).2
    obtain ⟨p, hp, hsc⟩ := hm
    have hcu : classify cur ≠ .unknown := by
      intro hc
      apply hu
      cases stack with
      | nil => cases h3
      | cons a b =>
        simp only [addChild, Outcome.ok.injEq] at h3
        rw [hst] at h3
        simp only [List.cons.injEq] at h3
        rw [hr, ← h3.1]
        refine Spec.HasUnknown.deep (n := .leaf (classify cur) cur) (by simp) ?_
        rw [hc]; exact .here
    simp only at hp hsc
    unfold Spec.Balanced
    rw [hp, scan_append, hsc, hl]
    simp only [Option.bind_some]
    exact scan_plain cur 0 (classify_uses cur (fun h0 => hn (by rw [hp]; simp [h0])) hcu)

/-- The hypotheses are met by ordinary texts. -/
example : parseText ['{', '1', ',', '"', '{', '"', '}'] = .ok (.list [.list [.leaf .number ['1'], .leaf .string ['{']]])
    ∧ Spec.Balanced ['{', '1', ',', '"', '{', '"', '}'] := by
  constructor
  · rfl
  · rfl

/-- The stream reader stops at the first NUL, so for it the condition on NUL is about
the part before it. -/
theorem stream_accepted_is_balanced_partial (s : Str) (r : Node) (h : parseStream s = .ok r)
    (hu : ¬ Spec.HasUnknown r) : Spec.Balanced (s.takeWhile (fun c => c != '\x00')) :=
  accepted_is_balanced_partial _ r (by
    intro h0
    have : ∀ l : Str, '\x00' ∉ l.takeWhile (fun c => c != '\x00') := by
      intro l
      induction l with
      | nil => simp
      | cons a l ih =>
        rw [List.takeWhile_cons]
        split
        · rename_i ha
          simp only [List.mem_cons, not_or]
          exact ⟨by rintro rfl; simp at ha, ih⟩
        · simp
    exact this s h0) h hu

/-- **C42 fails**: an unclassifiable value at the very end is only logged, and it may
contain an unmatched bracket. -/
theorem unbalanced_accepted :
    parseText ['a', '-', '{'] = .ok (.list [.leaf .unknown ['a', '-', '{']]) ∧ ¬ Spec.Balanced ['a', '-', '{'] := by
  constructor
  · rfl
  · unfold Spec.Balanced; decide

/-- **C42 fails** for text with NUL characters: classification stops at the NUL. -/
theorem unbalanced_after_nul :
    parseText ['{', '1', '\x00', '{', '}'] = .ok (.list [.list [.leaf .number ['1', '\x00', '{']]]) ∧
    ¬ Spec.Balanced ['{', '1', '\x00', '{', '}'] := by
  constructor
  · rfl
  · unfold Spec.Balanced; decide

theorem addChild_no_ub {st : List (List Node)} (h : st ≠ []) (n : Node) : ∃ st', addChild st n = .ok st' ∧ st' ≠ [] := by
  cases st with
  | nil => exact absurd rfl h
  | cons a b => exact ⟨_, rfl, by simp⟩

theorem close_no_ub {st : List (List Node)} (h : st ≠ []) :
    close st = .throw ∨ ∃ st', close st = .ok st' ∧ st' ≠ [] := by
  cases st with
  | nil => exact absurd rfl h
  | cons a b =>
    cases b with
    | nil => exact .inl rfl
    | cons c d => exact .inr ⟨_, rfl, by simp⟩

theorem closeValue_no_ub {st : List (List Node)} (h : st ≠ []) :
    closeValue st = .throw ∨ ∃ st', closeValue st = .ok st' ∧ st' ≠ [] := by
  cases st with
  | nil => exact absurd rfl h
  | cons a b =>
    cases a with
    | nil => exact close_no_ub (by simp)
    | cons x y =>
      simp only [closeValue, addChild, Outcome.ok_bind]
      exact close_no_ub (by simp)

theorem addClassified_no_ub {st : List (List Node)} (h : st ≠ []) (cur : Str) :
    addClassified cur st = .throw ∨ ∃ st', addClassified cur st = .ok st' ∧ st' ≠ [] := by
  unfold addClassified
  split
  · exact .inl rfl
  · exact .inr (addChild_no_ub h _)

theorem step_no_ub (s : PSt) (c : Char) (h : s.stack ≠ []) :
    step s c = .throw ∨ ∃ s', step s c = .ok s' ∧ s'.stack ≠ [] := by
  obtain ⟨mode, cur, stack⟩ := s
  simp only at h
  cases mode with
  | value =>
    simp only [step]
    split
    · exact .inr ⟨_, rfl, h⟩
    · split
      · exact .inr ⟨_, rfl, h⟩
      · split
        · exact .inr ⟨_, rfl, by simp⟩
        · split
          · rcases closeValue_no_ub h with h1 | ⟨st, h1, h2⟩
            · rw [h1]; exact .inl rfl
            · rw [h1]; exact .inr ⟨_, rfl, h2⟩
          · split
            · obtain ⟨st, h1, h2⟩ := addChild_no_ub h (.leaf .empty [])
              rw [h1]; exact .inr ⟨_, rfl, h2⟩
            · exact .inr ⟨_, rfl, h⟩
  | delimiter =>
    simp only [step]
    split
    · exact .inr ⟨_, rfl, h⟩
    · split
      · exact .inr ⟨_, rfl, h⟩
      · split
        · rcases close_no_ub h with h1 | ⟨st, h1, h2⟩
          · rw [h1]; exact .inl rfl
          · rw [h1]; exact .inr ⟨_, rfl, h2⟩
        · exact .inl rfl
  | string =>
    simp only [step]
    split
    · exact .inr ⟨_, rfl, h⟩
    · exact .inr ⟨_, rfl, h⟩
  | quoteOrEnd =>
    simp only [step]
    split
    · exact .inr ⟨_, rfl, h⟩
    · obtain ⟨st, h1, h2⟩ := addChild_no_ub h (.leaf .string cur)
      rw [h1]
      simp only [Outcome.ok_bind]
      split
      · exact .inr ⟨_, rfl, h2⟩
      · split
        · exact .inr ⟨_, rfl, h2⟩
        · split
          · rcases close_no_ub h2 with h3 | ⟨st2, h3, h4⟩
            · rw [h3]; exact .inl rfl
            · rw [h3]; exact .inr ⟨_, rfl, h4⟩
          · exact .inl rfl
  | nonstring =>
    simp only [step]
    split
    · rcases addClassified_no_ub h cur with h1 | ⟨st, h1, h2⟩
      · rw [h1]; exact .inl rfl
      · rw [h1]; exact .inr ⟨_, rfl, h2⟩
    · split
      · rcases addClassified_no_ub h cur with h1 | ⟨st, h1, h2⟩
        · rw [h1]; exact .inl rfl
        · rw [h1]
          simp only [Outcome.ok_bind]
          rcases close_no_ub h2 with h3 | ⟨st2, h3, h4⟩
          · rw [h3]; exact .inl rfl
          · rw [h3]; exact .inr ⟨_, rfl, h4⟩
      · exact .inr ⟨_, rfl, h⟩

theorem run_no_ub (s : PSt) (cs : Str) (h : s.stack ≠ []) :
    run s cs = .throw ∨ ∃ s', run s cs = .ok s' ∧ s'.stack ≠ [] := by
  induction cs generalizing s with
  | nil => exact .inr ⟨s, rfl, h⟩
  | cons c cs ih =>
    simp only [run]
    rcases step_no_ub s c h with h1 | ⟨s', h1, h2⟩
    · rw [h1]; exact .inl rfl
    · rw [h1]; exact ih s' h2

/-- **C42.** On every text the parser ends with a tree or an exception; it never goes
above the root. -/
theorem parse_never_leaves_tree (s : Str) : (∃ r, parseText s = .ok r) ∨ parseText s = .throw := by
  unfold parseText
  rcases run_no_ub start s (by simp [start]) with h | ⟨st, h, hne⟩
  · rw [h]; exact .inr rfl
  · rw [h]
    simp only [Outcome.ok_bind]
    obtain ⟨mode, cur, stack⟩ := st
    have fin : ∀ st' : List (List Node), st' ≠ [] → (∃ r, finishTree st' = .ok r) ∨ finishTree st' = .throw := by
      intro st' h'
      cases st' with
      | nil => exact absurd rfl h'
      | cons a b =>
        cases b with
        | nil => exact .inl ⟨_, rfl⟩
        | cons c d => exact .inr rfl
    cases mode with
    | value => exact .inr rfl
    | string => exact .inr rfl
    | delimiter => exact fin _ hne
    | quoteOrEnd =>
      obtain ⟨st', h1, h2⟩ := addChild_no_ub hne (.leaf .string cur)
      simp only [finish, h1, Outcome.ok_bind]; exact fin _ h2
    | nonstring =>
      obtain ⟨st', h1, h2⟩ := addChild_no_ub hne (.leaf (classify cur) cur)
      simp only [finish, h1, Outcome.ok_bind]; exact fin _ h2

end Verif.Tree
