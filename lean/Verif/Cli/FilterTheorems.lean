import Verif.Cli.Filter
import Verif.Cli.FilterSpec

/-! # Property theorems: lists of name patterns (C63) -/

namespace Verif.Cli
open Verif Verif.Tree Verif.Text Verif.Cli.Spec

/-- What becomes of one character of the list. -/
def rw1 (c : Char) : Str :=
  if c = '*' then ['.', '*'] else if c = '?' then ['.'] else if isSep c then ['\n'] else [c]

theorem rewrite_eq (s : Str) : rewrite s = some (s.flatMap rw1) := by
  unfold rewrite
  rw [replace_all _ _ _ (by simp) _ (by omega)]
  simp only [bind, Option.bind]
  rw [replace_all _ _ _ (by simp) _ (by omega)]
  simp only
  rw [replace_all _ _ _ (by simp) _ (by omega)]
  simp only
  rw [replace_all _ _ _ (by simp) _ (by omega)]
  simp only
  rw [replace_all _ _ _ (by simp) _ (by omega)]
  simp only
  rw [replace_all _ _ _ (by simp) _ (by omega)]
  simp only [replaceAll_single, List.flatMap_assoc]
  congr 1
  induction s with
  | nil => rfl
  | cons c s ih =>
    rw [List.flatMap_cons, List.flatMap_cons, ih]
    congr 1
    unfold rw1 isSep
    by_cases h1 : c = '*'
    · subst h1; decide
    by_cases h2 : c = '?'
    · subst h2; decide
    by_cases h3 : c = ' '
    · subst h3; decide
    by_cases h4 : c = '\t'
    · subst h4; decide
    by_cases h5 : c = ','
    · subst h5; decide
    by_cases h6 : c = ';'
    · subst h6; decide
    by_cases h7 : c = '\n'
    · subst h7; decide
    simp [h1, h2, h3, h4, h5, h6, h7]

/-- What becomes of one character of a pattern. -/
def gl (c : Char) : Str := if c = '*' then ['.', '*'] else if c = '?' then ['.'] else [c]

theorem splitNl_cons_ne (c : Char) (s : Str) (h : c ≠ '\n') :
    ∃ w ws, splitNl s = w :: ws ∧ splitNl (c :: s) = (c :: w) :: ws := by
  cases hs : splitNl s with
  | nil =>
    exfalso
    cases s with
    | nil => simp [splitNl] at hs
    | cons d s =>
      rw [splitNl] at hs
      split at hs
      · simp at hs
      · split at hs <;> simp at hs
  | cons w ws => exact ⟨w, ws, rfl, by rw [splitNl, if_neg h, hs]⟩

theorem pieces_ne (s : Str) : pieces s ≠ [] := by
  cases s with
  | nil => simp [pieces]
  | cons c s =>
    rw [pieces]
    split
    · simp
    · split <;> simp

theorem split_rewritten (s : Str) : splitNl (s.flatMap rw1) = (pieces s).map (fun w => w.flatMap gl) := by
  induction s with
  | nil => rfl
  | cons c s ih =>
    rw [List.flatMap_cons]
    obtain ⟨w, ws, hp⟩ := List.exists_cons_of_ne_nil (pieces_ne s)
    rw [hp, List.map_cons] at ih
    by_cases hs : isSep c = true
    · have h1 : c ≠ '*' := by rintro rfl; exact absurd hs (by decide)
      have h2 : c ≠ '?' := by rintro rfl; exact absurd hs (by decide)
      have : rw1 c = ['\n'] := by unfold rw1; rw [if_neg h1, if_neg h2, if_pos hs]
      rw [this, List.singleton_append, splitNl, if_pos rfl, ih, pieces, if_pos hs, hp]
      rfl
    · have hpc : pieces (c :: s) = (c :: w) :: ws := by rw [pieces, if_neg hs, hp]
      have hnl : c ≠ '\n' := by rintro rfl; exact hs (by decide)
      rw [hpc]
      have hg : rw1 c = gl c := by unfold rw1 gl; simp [hs]
      rw [hg, List.map_cons, List.flatMap_cons]
      have step : ∀ (p : Str), (∀ d ∈ p, d ≠ '\n') →
          splitNl (p ++ s.flatMap rw1) = (p ++ w.flatMap gl) :: ws.map (fun w => w.flatMap gl) := by
        intro p hp'
        induction p with
        | nil => exact ih
        | cons d p ihp =>
          rw [List.cons_append, splitNl, if_neg (hp' d List.mem_cons_self),
            ihp (fun x hx => hp' x (List.mem_cons_of_mem _ hx))]
          rfl
      apply step
      intro d hd
      unfold gl at hd
      split at hd
      · rcases List.mem_cons.1 hd with rfl | hd
        · decide
        · rw [List.mem_singleton.1 hd]; decide
      · split at hd
        · rw [List.mem_singleton.1 hd]; decide
        · rw [List.mem_singleton.1 hd]; exact hnl

theorem gl_ne (c : Char) : gl c ≠ [] := by 
  unfold gl
  split
  · simp
  · split <;> simp

theorem flatMap_gl_isEmpty (w : Str) : (w.flatMap gl).isEmpty = w.isEmpty := by
  cases w with
  | nil => rfl
  | cons c w =>
    have := gl_ne c
    rw [List.flatMap_cons]
    cases h : gl c with
    | nil => exact absurd h this
    | cons => rfl

theorem setText_nonempty (s : Str) : (setText s).filter (fun l => !l.isEmpty) =
    (splitNl s).filter (fun l => !l.isEmpty) := by
  unfold setText
  by_cases h : (splitNl s).getLast? = some []
  · simp only [if_pos h]
    obtain ⟨l, hl⟩ := List.getLast?_eq_some_iff.1 h
    rw [hl, List.dropLast_concat, List.filter_append]
    simp
  · simp only [if_neg h]

theorem toLower_cases (c : Char) : c.toLower = c ∨ (97 ≤ c.toLower.toNat ∧ c.toLower.toNat ≤ 122) := by
  unfold Char.toLower
  split
  · rename_i h
    right
    have h1 := h.1
    have h2 := h.2
    rw [ge_iff_le, UInt32.le_iff_toNat_le] at h1
    rw [UInt32.le_iff_toNat_le] at h2
    have e1 : ('A'.val).toNat = 65 := rfl
    have e2 : ('Z'.val).toNat = 90 := rfl
    have e3 : ('a'.val - 'A'.val).toNat = 32 := rfl
    have : (c.val + ('a'.val - 'A'.val)).toNat = c.val.toNat + 32 := by
      rw [UInt32.toNat_add, e3]; omega
    show 97 ≤ (c.val + ('a'.val - 'A'.val)).toNat ∧ (c.val + ('a'.val - 'A'.val)).toNat ≤ 122
    omega
  · left; rfl

theorem toLower_eq (c x : Char) (hx : x.toNat < 97 ∨ 122 < x.toNat) (h : c.toLower = x) : c = x := by
  rcases toLower_cases c with h1 | h1
  · rw [← h, h1]
  · rw [h] at h1; omega

theorem patterns_eq (s : Str) : patterns s = some ((words s).map (fun w => lower (w.flatMap gl))) := by
  unfold patterns
  rw [rewrite_eq, Option.map_some, setText_nonempty, split_rewritten, List.filter_map, List.map_map]
  congr 2
  unfold words
  apply List.filter_congr
  intro w _
  simp [flatMap_gl_isEmpty]

/-- Folding the case of a pattern, as the program leaves it to the regular expressions. -/
theorem lower_gl (w : Str) : lower (w.flatMap gl) = (lower w).flatMap gl := by
  induction w with
  | nil => rfl
  | cons c w ih =>
    unfold lower at *
    rw [List.flatMap_cons, List.map_append, ih, List.map_cons, List.flatMap_cons]
    congr 1
    by_cases h1 : c = '*'
    · subst h1; decide
    by_cases h2 : c = '?'
    · subst h2; decide
    have h3 : c.toLower ≠ '*' := fun e => h1 (toLower_eq c _ (by decide) e)
    have h4 : c.toLower ≠ '?' := fun e => h2 (toLower_eq c _ (by decide) e)
    simp [gl, h1, h2, h3, h4]

/-- Matching without regard to case, for lower-cased patterns and names. -/
inductive Glob' : Str → Str → Prop where
  | nil : Glob' [] []
  | star {p s t} : Glob' p t → Glob' ('*' :: p) (s ++ t)
  | one {p c t} : Glob' p t → Glob' ('?' :: p) (c :: t)
  | same {p c t} : c ≠ '*' → c ≠ '?' → Glob' p t → Glob' (c :: p) (c :: t)

theorem glob_lower (p t : Str) : Glob' (lower p) (lower t) ↔ Glob p t := by
  constructor
  · generalize hp : lower p = lp
    generalize ht : lower t = lt
    intro h
    induction h generalizing p t with
    | nil =>
      rw [List.map_eq_nil_iff.1 hp, List.map_eq_nil_iff.1 ht]
      exact .nil
    | @star p' s' t' _ ih =>
      obtain ⟨c, p, rfl, hc, rfl⟩ := List.map_eq_cons_iff.1 hp
      have := toLower_eq c _ (by decide) hc
      subst this
      obtain ⟨s, t, rfl, rfl, rfl⟩ := List.map_eq_append_iff.1 ht
      exact .star (ih p t rfl rfl)
    | @one p' c' t' _ ih =>
      obtain ⟨c, p, rfl, hc, rfl⟩ := List.map_eq_cons_iff.1 hp
      have := toLower_eq c _ (by decide) hc
      subst this
      obtain ⟨d, t, rfl, rfl, rfl⟩ := List.map_eq_cons_iff.1 ht
      exact .one (ih p t rfl rfl)
    | @same p' c' t' h1 h2 _ ih =>
      obtain ⟨c, p, rfl, hc, rfl⟩ := List.map_eq_cons_iff.1 hp
      obtain ⟨d, t, rfl, hd, rfl⟩ := List.map_eq_cons_iff.1 ht
      refine .same ?_ ?_ (hc.trans hd.symm) (ih p t rfl rfl)
      · rintro rfl; exact h1 (by rw [← hc]; decide)
      · rintro rfl; exact h2 (by rw [← hc]; decide)
  · intro h
    induction h with
    | nil => exact .nil
    | @star p s t _ ih =>
      unfold lower at *
      rw [List.map_append, List.map_cons]
      exact .star ih
    | @one p c t _ ih => exact .one ih
    | @same p c d t h1 h2 he _ ih =>
      unfold lower at *
      rw [List.map_cons, List.map_cons, he]
      refine .same ?_ ?_ ih
      · intro e; exact h1 (toLower_eq c _ (by decide) (he.trans e))
      · intro e; exact h2 (toLower_eq c _ (by decide) (he.trans e))

theorem compile_dot (r : Str) (h : r.head? ≠ some '*') :
    compile ('.' :: r) = (compile r).map (Re.seq (.cls fun _ => true)) := by
  cases r with
  | nil => rfl
  | cons c r =>
    have : c ≠ '*' := fun e => h (by rw [e]; rfl)
    rw [compile]
    intro r' e
    simp only [List.cons.injEq] at e
    exact this e.1

theorem compile_char (c : Char) (r : Str) (h : c ≠ '.') :
    compile (c :: r) = if isMeta c then none else (compile r).map (Re.seq (.chr c)) := by
  rw [compile]
  · intro r' e _; exact h e
  · exact h

theorem gl_head (w : Str) : (w.flatMap gl).head? ≠ some '*' := by
  cases w with
  | nil => simp
  | cons c w =>
    rw [List.flatMap_cons]
    unfold gl
    by_cases h1 : c = '*'
    · simp [h1]
    · by_cases h2 : c = '?'
      · simp [h2]
      · simp [h1, h2]

theorem any_star (s : Str) : Matches (.star (.cls fun _ => true)) s := by
  induction s with
  | nil => exact .starNil
  | cons c s ih => exact Matches.starCons (s := [c]) (.cls rfl) ih

/-- The regular expression of a pattern matches what the pattern matches. -/
theorem compile_spec (w : Str) (hw : ∀ c ∈ w, c = '*' ∨ c = '?' ∨ isMeta c = false) :
    ∃ e, compile (w.flatMap gl) = some e ∧ ∀ t, Matches e t ↔ Glob' w t := by
  induction w with
  | nil =>
    refine ⟨.eps, rfl, fun t => ⟨fun h => ?_, fun h => ?_⟩⟩
    · cases h; exact .nil
    · cases h; exact .eps
  | cons c w ih =>
    obtain ⟨e, he, hm⟩ := ih (fun d hd => hw d (List.mem_cons_of_mem _ hd))
    rw [List.flatMap_cons]
    by_cases h1 : c = '*'
    · subst h1
      refine ⟨.seq (.star (.cls fun _ => true)) e, ?_, fun t => ⟨fun h => ?_, fun h => ?_⟩⟩
      · show compile ('.' :: '*' :: w.flatMap gl) = _
        rw [compile, he]; rfl
      · cases h with
        | seq ha hb => exact .star ((hm _).1 hb)
      · generalize hc : '*' :: w = cw at h
        cases h with
        | nil => cases hc
        | star h => cases hc; exact .seq (any_star _) ((hm _).2 h)
        | one => cases hc
        | same h _ => cases hc; exact absurd rfl h
    · by_cases h2 : c = '?'
      · subst h2
        refine ⟨.seq (.cls fun _ => true) e, ?_, fun t => ⟨fun h => ?_, fun h => ?_⟩⟩
        · show compile ('.' :: w.flatMap gl) = _
          rw [compile_dot _ (gl_head w), he]; rfl
        · cases h with
          | seq ha hb => cases ha; exact .one ((hm _).1 hb)
        · generalize hc : '?' :: w = cw at h
          cases h with
          | nil => cases hc
          | star h => cases hc
          | @one p c t h => cases hc; exact Matches.seq (s := [c]) (.cls rfl) ((hm _).2 h)
          | same _ h => cases hc; exact absurd rfl h
      · have hnm : isMeta c = false := by
          rcases hw c List.mem_cons_self with h | h | h
          · exact absurd h h1
          · exact absurd h h2
          · exact h
        have hdot : c ≠ '.' := by rintro rfl; exact absurd hnm (by decide)
        refine ⟨.seq (.chr c) e, ?_, fun t => ⟨fun h => ?_, fun h => ?_⟩⟩
        · rw [show gl c = [c] by simp [gl, h1, h2], List.singleton_append, compile_char c _ hdot, he]
          simp [hnm]
        · cases h with
          | seq ha hb =>
            cases ha with
            | cls hp =>
              have := eq_of_beq hp
              subst this
              exact .same h1 h2 ((hm _).1 hb)
        · generalize hc : c :: w = cw at h
          cases h with
          | nil => cases hc
          | star h => cases hc; exact absurd rfl h1
          | one h => cases hc; exact absurd rfl h2
          | @same p c' t _ _ h => cases hc; exact Matches.seq (s := [c]) (.cls (by simp)) ((hm _).2 h)

theorem mem_pieces (s : Str) : ∀ w ∈ pieces s, ∀ c ∈ w, c ∈ s := by
  induction s with
  | nil => intro w hw c hc; simp [pieces] at hw; subst hw; cases hc
  | cons d s ih =>
    intro w hw c hc
    rw [pieces] at hw
    split at hw
    · rcases List.mem_cons.1 hw with rfl | hw
      · cases hc
      · exact List.mem_cons_of_mem _ (ih w hw c hc)
    · obtain ⟨v, vs, hp⟩ := List.exists_cons_of_ne_nil (pieces_ne s)
      rw [hp] at hw ih
      rcases List.mem_cons.1 hw with rfl | hw
      · rcases List.mem_cons.1 hc with rfl | hc
        · exact List.mem_cons_self
        · exact List.mem_cons_of_mem _ (ih v List.mem_cons_self c hc)
      · exact List.mem_cons_of_mem _ (ih w (List.mem_cons_of_mem _ hw) c hc)

theorem isMeta_lower (c : Char) (h : c ∉ ".[]{}()\\+|^$".toList) :
    c.toLower = '*' ∨ c.toLower = '?' ∨ isMeta c.toLower = false := by
  cases hm : isMeta c.toLower with
  | false => right; right; rfl
  | true =>
    unfold isMeta at hm
    have hm := List.contains_iff_mem.1 hm
    have key : ∀ x ∈ ".[]{}()\\*+?|^$".toList, (x = '*' ∨ x = '?' ∨ x ∈ ".[]{}()\\+|^$".toList) ∧
        (x.toNat < 97 ∨ 122 < x.toNat) := by decide
    obtain ⟨h1, h2⟩ := key _ hm
    rcases h1 with h1 | h1 | h1
    · exact Or.inl h1
    · exact Or.inr (Or.inl h1)
    · exfalso
      -- `c.toLower` is no letter, so it is `c`
      rcases toLower_cases c with h3 | h3
      · rw [h3] at h1; exact h h1
      · omega

theorem mapM_compile (ws : List Str) (hw : ∀ w ∈ ws, ∀ c ∈ w, c = '*' ∨ c = '?' ∨ isMeta c = false) :
    ∃ es, (ws.map (fun w => w.flatMap gl)).mapM compile = some es ∧
      ∀ t, (es.any (fun e => e.test t)) = true ↔ ∃ w ∈ ws, Glob' w t := by
  induction ws with
  | nil => exact ⟨[], rfl, fun t => by simp⟩
  | cons w ws ih =>
    obtain ⟨es, h1, h2⟩ := ih (fun v hv => hw v (List.mem_cons_of_mem _ hv))
    obtain ⟨e, h3, h4⟩ := compile_spec w (hw w List.mem_cons_self)
    refine ⟨e :: es, ?_, fun t => ?_⟩
    · rw [List.map_cons, List.mapM_cons, h3, h1]; rfl
    · rw [List.any_cons, Bool.or_eq_true, h2, test_iff, h4]
      constructor
      · rintro (h | ⟨v, hv, h⟩)
        · exact ⟨w, List.mem_cons_self, h⟩
        · exact ⟨v, List.mem_cons_of_mem _ hv, h⟩
      · rintro ⟨v, hv, h⟩
        rcases List.mem_cons.1 hv with rfl | hv
        · exact Or.inl h
        · exact Or.inr ⟨v, hv, h⟩

/-- **C63a (partial).** When the patterns use no special characters besides `*` and `?`, the tables
selected are exactly those whose name matches one of the patterns of the list, in the
order of the database; the list may not be empty. The property claims this for any
list; see `dot_matches_anything`. -/
theorem select_partial (filter : Str) (names : List Str) (hp : PlainList filter) (hne : words filter ≠ []) :
    ∃ sel, select filter names = .tables sel ∧ sel.Sublist names ∧
      (∀ n ∈ names, n ∈ sel ↔ Listed filter n) ∧
      (∀ n, sel.count n = if n ∈ sel then names.count n else 0) := by
  obtain ⟨es, h1, h2⟩ := mapM_compile ((words filter).map lower) (by
    intro w hw c hc
    obtain ⟨v, hv, rfl⟩ := List.mem_map.1 hw
    obtain ⟨d, hd, rfl⟩ := List.mem_map.1 hc
    exact isMeta_lower d (hp d (mem_pieces filter v (List.mem_filter.1 hv).1 d hd)))
  have hpat : patterns filter = some (((words filter).map lower).map (fun w => w.flatMap gl)) := by
    rw [patterns_eq, List.map_map]
    congr 2
    funext w
    exact lower_gl w
  have hsel : select filter names = .tables (names.filter fun n => es.any fun e => e.test (lower n)) := by
    unfold select
    rw [hpat]
    cases hw : ((words filter).map lower).map (fun w => w.flatMap gl) with
    | nil => exact absurd (List.map_eq_nil_iff.1 (List.map_eq_nil_iff.1 hw)) hne
    | cons a b =>
      rw [hw] at h1
      simp only [h1]
  have hiff : ∀ n, (es.any fun e => e.test (lower n)) = true ↔ Listed filter n := by
    intro n
    rw [h2]
    constructor
    · rintro ⟨w, hw, hg⟩
      obtain ⟨v, hv, rfl⟩ := List.mem_map.1 hw
      exact ⟨v, hv, (glob_lower v n).1 hg⟩
    · rintro ⟨v, hv, hg⟩
      exact ⟨lower v, List.mem_map_of_mem hv, (glob_lower v n).2 hg⟩
  refine ⟨_, hsel, List.filter_sublist, fun n hn => ?_, fun n => ?_⟩
  · rw [List.mem_filter, hiff]; exact ⟨fun h => h.2, fun h => ⟨hn, h⟩⟩
  · by_cases h : n ∈ names.filter fun n => es.any fun e => e.test (lower n)
    · rw [if_pos h]; exact List.count_filter (List.mem_filter.1 h).2
    · rw [if_neg h]; exact List.count_eq_zero.2 h

example : PlainList "Config*, v8users".toList ∧ words "Config*, v8users".toList = ["Config*".toList, "v8users".toList] ∧
    select "Config*, v8users".toList ["CONFIG".toList, "CONFIGSAVE".toList, "PARAMS".toList, "V8USERS".toList] =
      .tables ["CONFIG".toList, "CONFIGSAVE".toList, "V8USERS".toList] := by
  refine ⟨by unfold PlainList; decide, by decide, by decide +kernel⟩

/-- **C63b.** A list without any pattern is reported. -/
theorem select_empty (filter : Str) (names : List Str) (h : words filter = []) :
    select filter names = .emptyList := by
  unfold select
  rw [patterns_eq, h]
  rfl

example : words " , ;".toList = [] := by decide

/-- Other special characters are not taken literally: the pattern `a.b` also selects the
table `axb`. -/
theorem dot_matches_anything : select "a.b".toList ["axb".toList] = .tables ["axb".toList] ∧
    ¬ Listed "a.b".toList "axb".toList := by
  refine ⟨by decide +kernel, ?_⟩
  rintro ⟨w, hw, hg⟩
  have : words "a.b".toList = ["a.b".toList] := by decide
  rw [this, List.mem_singleton] at hw
  subst hw
  have hg' := (glob_lower _ _).2 hg
  generalize h1 : lower "a.b".toList = p at hg'
  generalize h2 : lower "axb".toList = t at hg'
  have e1 : lower "a.b".toList = ['a', '.', 'b'] := by decide
  have e2 : lower "axb".toList = ['a', 'x', 'b'] := by decide
  rw [e1] at h1; rw [e2] at h2
  subst h1; subst h2
  cases hg' with
  | same _ _ h => cases h

end Verif.Cli
