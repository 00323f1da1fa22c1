import Verif.Text.Model
import Verif.Text.Spec

/-! # Property theorems: StringReplace (C09) and XML escaping (C08) -/

namespace Verif.Text
open Verif Spec

/-! ## Helper lemmas -/

theorem replaceScan_enough (old new : Str) (h : old ≠ []) (n m : Nat) (s : Str)
    (hn : s.length ≤ n) (hm : s.length ≤ m) :
    replaceScan old new n s = replaceScan old new m s := by
  induction n generalizing m s with
  | zero =>
    have : s = [] := by cases s <;> simp_all
    subst this; cases m <;> rfl
  | succ n ih =>
    cases s with
    | nil => cases m <;> rfl
    | cons c s =>
      cases m with
      | zero => simp at hm
      | succ m =>
        simp only [replaceScan]
        have hl : 1 ≤ old.length := by cases old <;> simp_all
        split
        · rw [ih m _ (by simp at *; omega) (by simp at *; omega)]
        · rw [ih m _ (by simpa using hn) (by simpa using hm)]

theorem replaceAll_cons (old new : Str) (h : old ≠ []) (c : Char) (s : Str) :
    replaceAll old new (c :: s) =
      if old <+: (c :: s) then new ++ replaceAll old new ((c :: s).drop old.length)
      else c :: replaceAll old new s := by
  unfold replaceAll
  simp only [List.length_cons, replaceScan]
  have hl : 1 ≤ old.length := by cases old <;> simp_all
  split
  · congr 1
    exact replaceScan_enough old new h _ _ _ (by simp; omega) (Nat.le_refl _)
  · rfl

/-- Splitting at the first occurrence. -/
theorem findFrom_spec (old : Str) (h : old ≠ []) (pos : Nat) (s : Str) :
    (findFrom old pos s = none → ∀ new, replaceAll old new s = s ∧ replaceFirst old new s = s) ∧
    (∀ p, findFrom old pos s = some p → ∃ pre post, s = pre ++ old ++ post ∧ p = pos + pre.length ∧
      ∀ new, replaceAll old new s = pre ++ new ++ replaceAll old new post ∧
        replaceFirst old new s = pre ++ new ++ post) := by
  induction s generalizing pos with
  | nil =>
    have : old.isPrefixOf ([] : Str) = false := by cases old <;> simp_all
    refine ⟨fun _ new => ⟨rfl, rfl⟩, ?_⟩
    intro p hp
    simp [findFrom, h] at hp
  | cons c s ih =>
    by_cases hp : old <+: (c :: s)
    · have hb : old.isPrefixOf (c :: s) = true := by simpa using hp
      simp only [findFrom, hb, if_true]
      refine ⟨by simp, ?_⟩
      intro p hpe
      have hpe : pos = p := by simpa using hpe
      obtain ⟨post, hpost⟩ := hp
      refine ⟨[], post, by simpa using hpost.symm, by simp [hpe], ?_⟩
      intro new
      rw [replaceAll_cons old new h]
      simp only [replaceFirst]
      rw [if_pos ⟨post, hpost⟩, if_pos ⟨post, hpost⟩, ← hpost]
      simp
    · have hb : old.isPrefixOf (c :: s) = false := by
        rw [Bool.eq_false_iff]; intro e; exact hp (by simpa using e)
      have hf : findFrom old pos (c :: s) = findFrom old (pos + 1) s := by
        simp only [findFrom, hb]; rfl
      rw [hf]
      refine ⟨fun hn new => ?_, fun p hpe => ?_⟩
      · have := (ih (pos + 1)).1 hn new
        rw [replaceAll_cons old new h]
        simp only [replaceFirst]
        rw [if_neg hp, if_neg hp, this.1, this.2]; exact ⟨rfl, rfl⟩
      · obtain ⟨pre, post, h1, h2, h3⟩ := (ih (pos + 1)).2 p hpe
        refine ⟨c :: pre, post, by simp [h1], by simp [h2]; omega, fun new => ?_⟩
        rw [replaceAll_cons old new h]
        simp only [replaceFirst]
        rw [if_neg hp, if_neg hp, (h3 new).1, (h3 new).2]; simp

theorem replaceLoop_spec (old new : Str) (h : old ≠ []) (fuel : Nat) (done todo : Str)
    (hf : todo.length < fuel) :
    replaceLoop old new true fuel (done ++ todo) done.length = some (done ++ replaceAll old new todo) := by
  induction fuel generalizing done todo with
  | zero => omega
  | succ fuel ih =>
    have hspec := findFrom_spec old h done.length todo
    have hfind : find (done ++ todo) old done.length = findFrom old done.length todo := by
      unfold find; rw [if_pos (by simp), List.drop_left]
    simp only [replaceLoop]
    rw [hfind]
    cases hc : findFrom old done.length todo with
    | none => simp only []; rw [(hspec.1 hc new).1]
    | some p =>
      obtain ⟨pre, post, h1, h2, h3⟩ := hspec.2 p hc
      simp only [if_true]
      have hl : 1 ≤ old.length := by cases old <;> simp_all
      have e : replaceAt (done ++ todo) p old.length new = (done ++ pre ++ new) ++ post := by
        subst h1 h2
        unfold replaceAt
        rw [show done ++ (pre ++ old ++ post) = (done ++ pre) ++ (old ++ post) by simp]
        rw [show done.length + pre.length = (done ++ pre).length by simp]
        rw [List.take_left, ← List.drop_drop, List.drop_left, List.drop_left]

      rw [e, show p + new.length = (done ++ pre ++ new).length by simp [h2]; omega]
      rw [ih _ _ (by subst h1; simp at hf; omega), (h3 new).1]
      simp

/-! ## C09 -/

/-- **C09a.** Replacing all occurrences of a non-empty pattern always terminates and
yields the text in which the leftmost non-overlapping occurrences are replaced
and everything between them is kept, also when the replacement contains the
pattern. -/
theorem replace_all (s old new : Str) (h : old ≠ []) (fuel : Nat) (hf : s.length < fuel) :
    stringReplace fuel s old new true = some (Spec.replaceAll old new s) := by
  have := replaceLoop_spec old new h fuel [] s hf
  simpa [stringReplace] using this

/-- **C09b.** Without `rfReplaceAll` only the leftmost occurrence is replaced. -/
theorem replace_first (s old new : Str) (h : old ≠ []) (fuel : Nat) (hf : 0 < fuel) :
    stringReplace fuel s old new false = some (Spec.replaceFirst old new s) := by
  obtain ⟨f, rfl⟩ : ∃ f, fuel = f + 1 := ⟨fuel - 1, by omega⟩
  have hspec := findFrom_spec old h 0 s
  simp only [stringReplace, replaceLoop]
  have hfind : find s old 0 = findFrom old 0 s := by unfold find; simp
  rw [hfind]
  cases hc : findFrom old 0 s with
  | none => simp only []; rw [(hspec.1 hc new).2]
  | some p =>
    obtain ⟨pre, post, h1, h2, h3⟩ := hspec.2 p hc
    simp only [Bool.false_eq_true, if_false]
    rw [(h3 new).2]
    subst h1 h2
    simp only [replaceAt, Nat.zero_add]
    rw [show pre ++ old ++ post = pre ++ (old ++ post) by simp]
    rw [List.take_left, ← List.drop_drop, List.drop_left, List.drop_left]

/-- **C09c.** Replacing a pattern by itself is the identity. -/
theorem replace_self (s old : Str) (h : old ≠ []) (fuel : Nat) (hf : s.length < fuel) :
    stringReplace fuel s old old true = some s := by
  rw [replace_all s old old h fuel hf]
  congr 1
  suffices ∀ n (t : Str), t.length ≤ n → Spec.replaceAll old old t = t from this s.length s (Nat.le_refl _)
  intro n
  induction n with
  | zero => intro t ht; have : t = [] := by cases t <;> simp_all
            subst this; rfl
  | succ n ih =>
    intro t ht
    cases t with
    | nil => rfl
    | cons c t =>
      rw [replaceAll_cons old old h]
      have hl : 1 ≤ old.length := by cases old <;> simp_all
      split
      · rename_i hp
        rw [ih _ (by simp at *; omega)]
        obtain ⟨post, hpost⟩ := hp
        rw [← hpost, List.drop_left]
      · rw [ih t (by simpa using ht)]

/-- **C09d.** With an empty pattern the loop never terminates: no number of passes
suffices, for any text and replacement. -/
theorem replace_empty_diverges (s new : Str) (fuel : Nat) : stringReplace fuel s [] new true = none := by
  suffices ∀ fuel (r : Str) pos, pos ≤ r.length → replaceLoop [] new true fuel r pos = none from
    this fuel s 0 (Nat.zero_le _)
  intro fuel
  induction fuel with
  | zero => intros; rfl
  | succ fuel ih =>
    intro r pos hp
    have hfind : find r [] pos = some pos := by
      unfold find
      rw [if_pos hp]
      cases r.drop pos <;> simp [findFrom]
    simp only [replaceLoop, hfind, if_true]
    apply ih
    simp [replaceAt]
    omega

example : stringReplace 10 "aaabaa".toList "aa".toList "aaa".toList true = some "aaaabaaa".toList := by decide
example : Spec.replaceAll "aa".toList "aaa".toList "aaabaa".toList = "aaaabaaa".toList := by decide
example : stringReplace 10 "aaabaa".toList "aa".toList "x".toList false = some "xabaa".toList := by decide

/-! ## C08 -/

theorem replaceAll_single (c : Char) (new s : Str) :
    Spec.replaceAll [c] new s = s.flatMap (fun x => if x = c then new else [x]) := by
  induction s with
  | nil => rfl
  | cons d s ih =>
    rw [replaceAll_cons [c] new (by simp)]
    by_cases h : d = c
    · subst h
      rw [if_pos (by simp)]
      simp [ih]
    · rw [if_neg (by simpa using fun e : c = d => h e.symm)]
      simp [ih, h]

/-- The entity (or the character itself) that stands for one character. -/
def escapeChar (c : Char) : Str :=
  if c = '&' then "&amp;".toList else if c = '<' then "&lt;".toList
  else if c = '>' then "&gt;".toList else if c = '\'' then "&apos;".toList
  else if c = '"' then "&quot;".toList else [c]

/-- A text in which none of the five special characters occurs twice. -/
def Spec.AtMostOneEach (s : Str) : Prop :=
  ∀ c ∈ ['&', '<', '>', '\'', '"'], s.count c ≤ 1

instance (s : Str) : Decidable (Spec.AtMostOneEach s) := by
  unfold Spec.AtMostOneEach; infer_instance

theorem replaceFirst_single (c : Char) (new s : Str) (h : s.count c ≤ 1) :
    Spec.replaceFirst [c] new s = s.flatMap (fun x => if x = c then new else [x]) := by
  induction s with
  | nil => rfl
  | cons d s ih =>
    simp only [Spec.replaceFirst]
    by_cases h' : d = c
    · subst h'
      rw [if_pos (by simp)]
      have h0 : s.count d = 0 := by rw [List.count_cons_self] at h; omega
      have hn : d ∉ s := List.count_eq_zero.mp h0
      have : s.flatMap (fun x => if x = d then new else [x]) = s.flatMap (fun x => [x]) := by
        rw [List.flatMap_def, List.flatMap_def]
        congr 1
        apply List.map_congr_left
        intro x hx
        rw [if_neg (fun e : x = d => hn (e ▸ hx))]
      simp [this]
    · rw [if_neg (by simpa using fun e : c = d => h' e.symm)]
      have : s.count c ≤ 1 := by
        have := List.count_cons (a := c) (b := d) (l := s); omega
      simp [ih this, h']

theorem count_replaceFirst (c d : Char) (new s : Str) (hd : d ∉ new) :
    (Spec.replaceFirst [c] new s).count d ≤ s.count d := by
  induction s with
  | nil => simp [Spec.replaceFirst]
  | cons x s ih =>
    simp only [Spec.replaceFirst]
    split
    · simp only [List.count_append, List.length_cons, List.length_nil, List.drop_succ_cons,
        List.drop_zero, List.count_eq_zero.mpr hd, Nat.zero_add]
      exact List.count_le_count_cons
    · simp only [List.count_cons]; omega

/-- Helper: on texts where each special character occurs at most once, the five
sequential replacements are one character map. -/
theorem toXML_eq (s : Str) (h : Spec.AtMostOneEach s) : toXML s = some (s.flatMap escapeChar) := by
  unfold toXML
  have r := fun (t : Str) (c : Char) (new : Str) =>
    replace_first t [c] new (by simp) 1 (Nat.lt_succ_self _)
  simp only [show "&".toList = ['&'] from rfl, show "<".toList = ['<'] from rfl,
    show ">".toList = ['>'] from rfl, show "'".toList = ['\''] from rfl,
    show "\"".toList = ['"'] from rfl, r, Option.bind_eq_bind, Option.bind_some]
  have c1 := h '&' (by simp)
  have c2 := Nat.le_trans (count_replaceFirst '&' '<' "&amp;".toList s (by decide)) (h '<' (by simp))
  have c3 := Nat.le_trans (count_replaceFirst '<' '>' "&lt;".toList _ (by decide))
    (Nat.le_trans (count_replaceFirst '&' '>' "&amp;".toList s (by decide)) (h '>' (by simp)))
  have c4 := Nat.le_trans (count_replaceFirst '>' '\'' "&gt;".toList _ (by decide))
    (Nat.le_trans (count_replaceFirst '<' '\'' "&lt;".toList _ (by decide))
    (Nat.le_trans (count_replaceFirst '&' '\'' "&amp;".toList s (by decide)) (h '\'' (by simp))))
  have c5 := Nat.le_trans (count_replaceFirst '\'' '"' "&apos;".toList _ (by decide))
    (Nat.le_trans (count_replaceFirst '>' '"' "&gt;".toList _ (by decide))
    (Nat.le_trans (count_replaceFirst '<' '"' "&lt;".toList _ (by decide))
    (Nat.le_trans (count_replaceFirst '&' '"' "&amp;".toList s (by decide)) (h '"' (by simp)))))
  rw [replaceFirst_single _ _ _ c5, replaceFirst_single _ _ _ c4, replaceFirst_single _ _ _ c3,
    replaceFirst_single _ _ _ c2, replaceFirst_single _ _ _ c1]
  simp only [List.flatMap_assoc]
  congr 1
  rw [List.flatMap_def, List.flatMap_def]
  congr 1
  apply List.map_congr_left
  intro c _
  unfold escapeChar
  by_cases h1 : c = '&'
  · subst h1; decide
  · by_cases h2 : c = '<'
    · subst h2; decide
    · by_cases h3 : c = '>'
      · subst h3; decide
      · by_cases h4 : c = '\''
        · subst h4; decide
        · by_cases h5 : c = '"'
          · subst h5; decide
          · simp [h1, h2, h3, h4, h5]

theorem unescape_enough (n m : Nat) (s : Str) (hn : s.length ≤ n) (hm : s.length ≤ m) :
    unescape n s = unescape m s := by
  induction n generalizing m s with
  | zero =>
    have : s = [] := by cases s <;> simp_all
    subst this; cases m <;> rfl
  | succ n ih =>
    cases s with
    | nil => cases m <;> rfl
    | cons c s =>
      cases m with
      | zero => simp at hm
      | succ m =>
        simp only [unescape]
        split
        · rename_i e he
          have hl : 1 ≤ e.1.length := by
            have hmem := List.mem_of_find?_eq_some he
            have : ∀ e ∈ entities, 1 ≤ e.1.length := by decide
            exact this e hmem
          rw [ih m _ (by simp at *; omega) (by simp at *; omega)]
        · rw [ih m _ (by simpa using hn) (by simpa using hm)]

theorem unescape_escapeChar (c : Char) (t : Str) :
    unescapeXML (escapeChar c ++ t) = c :: unescapeXML t := by
  have step : ∀ (e : Str) (d x : Char) (xs : Str), e = x :: xs → (e, d) ∈ entities →
      entities.find? (fun e' => e'.1.isPrefixOf (e ++ t)) = some (e, d) →
      unescapeXML (e ++ t) = d :: unescapeXML t := by
    intro e d x xs he _ hf
    unfold unescapeXML
    subst he
    simp only [List.cons_append, List.length_cons, unescape]
    simp only [List.cons_append] at hf
    rw [hf]
    simp only [List.length_cons, List.drop_succ_cons]
    congr 1
    rw [List.drop_left]
    exact unescape_enough _ _ _ (by simp) (Nat.le_refl _)
  unfold escapeChar
  split
  · rename_i h; subst h
    exact step _ '&' '&' "amp;".toList rfl (by decide) (by simp [entities])
  · split
    · rename_i h; subst h
      exact step _ '<' '&' "lt;".toList rfl (by decide) (by simp [entities])
    · split
      · rename_i h; subst h
        exact step _ '>' '&' "gt;".toList rfl (by decide) (by simp [entities])
      · split
        · rename_i h; subst h
          exact step _ '\'' '&' "apos;".toList rfl (by decide) (by simp [entities])
        · split
          · rename_i h; subst h
            exact step _ '"' '&' "quot;".toList rfl (by decide) (by simp [entities])
          · rename_i h1 h2 h3 h4 h5
            unfold unescapeXML
            simp only [List.cons_append, List.nil_append, List.length_cons, unescape]
            have : entities.find? (fun e' => e'.1.isPrefixOf (c :: t)) = none := by
              have hc : ¬ ('&' = c) := fun e => h1 e.symm
              simp [entities, hc]
            rw [this]

/-- **C08a (partial).** If none of the five special characters occurs more than once,
decoding the five standard entities of the escaped text gives back the original
text. Missing: texts with a repeated special character, for which the claim is
false (`xml_second_occurrence_raw`). -/
theorem xml_roundtrip_partial (s : Str) (h : Spec.AtMostOneEach s) :
    ∃ x, toXML s = some x ∧ Spec.unescapeXML x = s := by
  refine ⟨_, toXML_eq s h, ?_⟩
  clear h
  induction s with
  | nil => rfl
  | cons c s ih =>
    simp only [List.flatMap_cons]
    rw [unescape_escapeChar, ih]

/-- **C08b (partial).** Under the same restriction the escaped text contains no raw `<`,
`>`, quote or apostrophe. -/
theorem xml_no_special_partial (s x : Str) (hs : Spec.AtMostOneEach s) (h : toXML s = some x) :
    '<' ∉ x ∧ '>' ∉ x ∧ '"' ∉ x ∧ '\'' ∉ x := by
  rw [toXML_eq s hs] at h
  have hx := (Option.some.inj h).symm
  have key : ∀ c, '<' ∉ escapeChar c ∧ '>' ∉ escapeChar c ∧ '"' ∉ escapeChar c ∧ '\'' ∉ escapeChar c := by
    intro c
    unfold escapeChar
    split; · decide
    split; · decide
    split; · decide
    split; · decide
    split; · decide
    rename_i h1 h2 h3 h4 h5
    simp [Ne.symm h2, Ne.symm h3, Ne.symm h4, Ne.symm h5]
  subst hx
  simp only [List.mem_flatMap, not_exists, not_and]
  exact ⟨fun c _ => (key c).1, fun c _ => (key c).2.1, fun c _ => (key c).2.2.1, fun c _ => (key c).2.2.2⟩

/-- **C08c (partial).** Under the same restriction every `&` of the escaped text starts
one of the five entities. -/
theorem xml_amp_starts_entity_partial (s x pre post : Str) (hs : Spec.AtMostOneEach s) (h : toXML s = some x) (hx : x = pre ++ '&' :: post) :
    ∃ e ∈ Spec.entities, e.1 <+: ('&' :: post) := by
  rw [toXML_eq s hs] at h
  have hx' := Option.some.inj h
  rw [hx] at hx'
  clear h hx hs
  induction s generalizing pre with
  | nil => simp at hx'
  | cons c s ih =>
    simp only [List.flatMap_cons] at hx'
    -- either the `&` lies inside the image of `c`, or in the rest
    rcases List.append_eq_append_iff.mp hx' with ⟨a, ha, hb⟩ | ⟨a, ha, hb⟩
    · exact ih a hb
    · cases a with
      | nil => exact ih [] (by simpa using hb.symm)
      | cons y a =>
        simp only [List.cons_append, List.cons.injEq] at hb
        obtain ⟨rfl, hb⟩ := hb
        have key : ∀ pre' a', escapeChar c = pre' ++ '&' :: a' →
            pre' = [] ∧ ∃ e ∈ entities, e.1 = '&' :: a' := by
          intro pre' a' he
          have hpos : ∀ (w : Str) (d : Char), (('&' :: w, d) ∈ entities) → '&' ∉ w →
              '&' :: w = pre' ++ '&' :: a' → pre' = [] ∧ ∃ e ∈ entities, e.1 = '&' :: a' := by
            intro w d hm hw hq
            cases pre' with
            | nil =>
              simp only [List.nil_append] at hq
              exact ⟨rfl, _, hm, hq⟩
            | cons p ps =>
              simp only [List.cons_append, List.cons.injEq] at hq
              exact absurd (by rw [hq.2]; simp) hw
          unfold escapeChar at he
          split at he
          · exact hpos "amp;".toList '&' (by decide) (by decide) he
          split at he
          · exact hpos "lt;".toList '<' (by decide) (by decide) he
          split at he
          · exact hpos "gt;".toList '>' (by decide) (by decide) he
          split at he
          · exact hpos "apos;".toList '\'' (by decide) (by decide) he
          split at he
          · exact hpos "quot;".toList '"' (by decide) (by decide) he
          · rename_i h1 _ _ _ _
            exfalso
            have : '&' ∈ [c] := by rw [he]; simp
            simp at this
            exact h1 this.symm
        obtain ⟨_, e, he, hee⟩ := key pre a ha
        exact ⟨e, he, by rw [hee, hb]; exact ⟨_, rfl⟩⟩

example : Spec.AtMostOneEach "a<b & \"c > 'd".toList ∧ toXML "a<b & \"c > 'd".toList =
    some "a&lt;b &amp; &quot;c &gt; &apos;d".toList := by decide

/-- **C08d.** The exact effect on every text: the leftmost occurrence of each of `&`,
`<`, `>`, apostrophe and quote (in this order) is replaced by its entity, and
nothing else changes. -/
theorem xml_exact (s : Str) : toXML s = some
    (Spec.replaceFirst ['"'] "&quot;".toList (Spec.replaceFirst ['\''] "&apos;".toList
      (Spec.replaceFirst ['>'] "&gt;".toList (Spec.replaceFirst ['<'] "&lt;".toList
        (Spec.replaceFirst ['&'] "&amp;".toList s))))) := by
  unfold toXML
  have r := fun (t : Str) (c : Char) (new : Str) =>
    replace_first t [c] new (by simp) 1 (Nat.lt_succ_self _)
  simp only [show "&".toList = ['&'] from rfl, show "<".toList = ['<'] from rfl,
    show ">".toList = ['>'] from rfl, show "'".toList = ['\''] from rfl,
    show "\"".toList = ['"'] from rfl, r, Option.bind_eq_bind, Option.bind_some]

theorem mem_replaceFirst_rest (c : Char) (new pre post : Str) (hp : c ∉ pre) :
    Spec.replaceFirst [c] new (pre ++ c :: post) = pre ++ new ++ post := by
  induction pre with
  | nil => simp [Spec.replaceFirst]
  | cons x pre ih =>
    simp only [List.mem_cons, not_or] at hp
    simp only [List.cons_append, Spec.replaceFirst]
    rw [if_neg (by simpa using hp.1), ih hp.2]

theorem mem_replaceFirst_other (c d : Char) (new s : Str) (hcd : d ≠ c) (h : d ∈ s) :
    d ∈ Spec.replaceFirst [c] new s := by
  induction s with
  | nil => simp at h
  | cons x s ih =>
    simp only [Spec.replaceFirst]
    split
    · rename_i hp
      have hx : c = x := by simpa using hp
      subst hx
      rcases List.mem_cons.mp h with h | h
      · exact absurd h hcd
      · simp [h]
    · rcases List.mem_cons.mp h with h | h
      · simp [h]
      · simp [ih h]

/-- **C08 is false in general.** Every text with two or more `<` is escaped to a text
that still contains a raw `<`: the second and later ones are never escaped. -/
theorem xml_second_occurrence_raw (a b c : Str) :
    ∃ x, toXML (a ++ '<' :: b ++ '<' :: c) = some x ∧ '<' ∈ x := by
  refine ⟨_, xml_exact _, ?_⟩
  apply mem_replaceFirst_other _ _ _ _ (by decide)
  apply mem_replaceFirst_other _ _ _ _ (by decide)
  apply mem_replaceFirst_other _ _ _ _ (by decide)
  -- after the `&` pass there are still two `<`
  have h2 : ∀ s : Str, 2 ≤ s.count '<' → 2 ≤ (Spec.replaceFirst ['&'] "&amp;".toList s).count '<' := by
    intro s
    induction s with
    | nil => simp
    | cons x s ih =>
      intro h
      simp only [Spec.replaceFirst]
      split
      · rename_i hp
        have hx : '&' = x := by simpa using hp
        subst hx
        simp at h ⊢; exact h
      · by_cases hx : x = '<'
        · subst hx
          by_cases h' : 2 ≤ s.count '<'
          · have := ih h'; simp only [List.count_cons_self]; omega
          · have hm : '<' ∈ s := by
              apply List.count_pos_iff.mp; simp at h; exact Nat.pos_of_ne_zero (by
                intro e; rw [List.count_eq_zero] at e; exact e h)
            have : '<' ∈ Spec.replaceFirst ['&'] "&amp;".toList s :=
              mem_replaceFirst_other _ _ _ _ (by decide) hm
            have := List.count_pos_iff.mpr this
            simp only [List.count_cons_self]; omega
        · rw [List.count_cons_of_ne (by simpa using hx)] at h ⊢
          exact ih h
  have h3 : ∀ s : Str, 2 ≤ s.count '<' → '<' ∈ Spec.replaceFirst ['<'] "&lt;".toList s := by
    intro s
    induction s with
    | nil => simp
    | cons x s ih =>
      intro h
      simp only [Spec.replaceFirst]
      split
      · rename_i hp
        have hx : '<' = x := by simpa using hp
        subst hx
        have : 0 < s.count '<' := by simp at h; exact List.count_pos_iff.mpr (by simpa using h)
        simp [List.count_pos_iff.mp this]
      · rename_i hp
        have hx : x ≠ '<' := fun e => hp (by simp [e])
        rw [List.count_cons_of_ne (by simpa using hx)] at h
        exact List.mem_cons_of_mem _ (ih h)
  exact h3 _ (h2 _ (by simp; omega))

/-- A concrete document broken by this: `a<b<c` keeps a raw `<`, and `x&&lt;` no longer
decodes to itself. -/
theorem xml_broken_witness :
    toXML "a<b<c".toList = some "a&lt;b<c".toList ∧
    toXML "&&lt;".toList = some "&amp;&lt;".toList ∧
    Spec.unescapeXML "&amp;&lt;".toList ≠ "&&lt;".toList := by decide

end Verif.Text
