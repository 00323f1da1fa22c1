import Verif.Tree.Spec
import Verif.Text.Theorems

/-! # Lemmas about the bracket parser and printer -/

namespace Verif.Tree
open Verif Text

/-! ## Characters of a classified value -/

/-- Characters that never occur in an unquoted value. -/
def special : List Char := [',', '{', '}', '"', ' ', '\t']

theorem classify_uses (v : Str) (h0 : '\x00' ∉ v) (hu : classify v ≠ .unknown) :
    ∀ c ∈ v, c ∉ special := by
  have hc : cstr v = v := by
    unfold cstr
    have : ∀ l : Str, '\x00' ∉ l → l.takeWhile (fun c => c != '\x00') = l := by
      intro l
      induction l with
      | nil => simp
      | cons a l ih =>
        intro h
        simp only [List.mem_cons, not_or] at h
        rw [List.takeWhile_cons_of_pos (by simpa using fun e => h.1 e.symm), ih h.2]
    exact this v h0
  intro c hcv
  have key : ∀ r : Re, r.test (cstr v) = true → (∀ d ∈ special, Re.uses d r = false) → c ∉ special := by
    intro r hr hs hm
    rw [hc, test_iff] at hr
    have := matches_uses hr c hcv
    rw [hs c hm] at this
    cases this
  unfold classify at hu
  split at hu
  · rename_i h; rw [List.length_eq_zero_iff] at h; subst h; simp at hcv
  · split at hu
    · rename_i h; exact key _ h (by decide)
    · split at hu
      · rename_i h; exact key _ h (by decide)
      · split at hu
        · rename_i h; exact key _ h (by decide)
        · split at hu
          · rename_i h; exact key _ h (by decide)
          · split at hu
            · rename_i h; exact key _ h (by decide)
            · split at hu
              · rename_i h; exact key _ h (by decide)
              · split at hu
                · rename_i h; exact key _ h (by decide)
                · exact absurd rfl hu

/-! ## Running the parser -/

theorem run_append (s : PSt) (a b : Str) : run s (a ++ b) = (run s a >>= fun s => run s b) := by
  induction a generalizing s with
  | nil => rfl
  | cons c a ih =>
    simp only [List.cons_append, run]
    cases step s c with
    | ok s' => simp only [Outcome.ok_bind]; exact ih s'
    | throw => rfl
    | ub => rfl

/-- What is written for a string leaf is the quoted form. -/
theorem outLeaf_string (v : Str) : outLeaf .string v = Spec.quoted v := by
  simp only [outLeaf, Spec.quoted]
  rw [replace_all v ['"'] ['"', '"'] (by simp) _ (by omega), replaceAll_single]
  rfl

/-- Inside a string, the doubled form of `v` is collected as `v`. -/
theorem run_doubled (v : Str) (cur : Str) (st : List (List Node)) (rest : Str) :
    run ⟨.string, cur, st⟩ (v.flatMap (fun c => if c = '"' then ['"', '"'] else [c]) ++ rest)
      = run ⟨.string, cur ++ v, st⟩ rest := by
  induction v generalizing cur with
  | nil => simp
  | cons c v ih =>
    by_cases hc : c = '"'
    · subst hc
      simp only [List.flatMap_cons, if_true, List.cons_append, List.nil_append, run, step, Outcome.ok_bind]
      rw [ih]; simp
    · simp only [List.flatMap_cons, if_neg hc, List.cons_append, List.nil_append, run, step, Outcome.ok_bind]
      rw [ih]; simp

theorem run_quoted (v : Str) (cur : Str) (st : List (List Node)) :
    run ⟨.value, cur, st⟩ (Spec.quoted v) = .ok ⟨.quoteOrEnd, v, st⟩ := by
  have h : Spec.quoted v = '"' :: (v.flatMap (fun c => if c = '"' then ['"', '"'] else [c]) ++ ['"']) := by
    simp [Spec.quoted]
  have h1 : step ⟨.value, cur, st⟩ '"' = .ok ⟨.string, [], st⟩ := rfl
  rw [h, run, h1]
  simp only [Outcome.ok_bind]
  rw [run_doubled]
  rfl

/-- In the middle of an unquoted value, ordinary characters are collected. -/
theorem run_token (v : Str) (cur : Str) (st : List (List Node)) (h : ∀ c ∈ v, c ∉ special) :
    run ⟨.nonstring, cur, st⟩ v = .ok ⟨.nonstring, cur ++ v, st⟩ := by
  induction v generalizing cur with
  | nil => simp [run]
  | cons c v ih =>
    have hc := h c (by simp)
    simp only [special, List.mem_cons, not_or] at hc
    simp only [run, step]
    rw [if_neg hc.1, if_neg hc.2.2.1]
    simp only [Outcome.ok_bind]
    rw [ih _ (fun d hd => h d (by simp [hd]))]
    simp

theorem run_value_token (v : Str) (t : NType) (cur : Str) (st : List (List Node)) (h : Spec.Token t v) :
    run ⟨.value, cur, st⟩ v = .ok ⟨.nonstring, v, st⟩ := by
  obtain ⟨hne, h0, hb, hu, hcl⟩ := h
  have hs := classify_uses v h0 (by rw [hcl]; exact hu)
  cases v with
  | nil => exact absurd rfl hne
  | cons c v =>
    have hb' := hb c rfl
    have hc := hs c (by simp)
    simp only [special, List.mem_cons, not_or] at hc
    simp only [List.mem_cons, not_or] at hb'
    simp only [run, step, isBlank]
    rw [if_neg (by simp [hb'.1, hb'.2.1, hb'.2.2.1, hb'.2.2.2.1]), if_neg hc.2.2.2.1, if_neg hc.2.1, if_neg hc.2.2.1,
      if_neg hc.1]
    simp only [Outcome.ok_bind]
    rw [run_token v [c] st (fun d hd => hs d (by simp [hd]))]
    simp

/-! ## The printer as plain concatenation -/

mutual
/-- Text of a node; `first` says that nothing precedes it. -/
def body : Node → Bool → Str
  | .mk t v [], _ => outLeaf t v
  | .mk _ _ (k :: ks), first =>
    (if first then [] else crlf) ++ ['{'] ++ bodyKids (k :: ks) ++
      (if (((k :: ks).getLast?).map Node.type) = some .list then crlf else []) ++ ['}']
def bodyKids : List Node → Str
  | [] => []
  | k :: ks => body k false ++ (if ks.isEmpty then [] else [',']) ++ bodyKids ks
end

mutual
theorem out_eq : ∀ (n : Node) (text : Str), out n text = text ++ body n text.isEmpty
  | .mk t v [], text => by simp [out, body]
  | .mk t v (k :: ks), text => by
    simp only [out, body]
    rw [outKids_eq (k :: ks) _ (by simp)]
    by_cases h : text.isEmpty = true
    · rw [if_pos h, if_pos h]
      split <;> simp
    · rw [if_neg h, if_neg h]
      split <;> simp
theorem outKids_eq : ∀ (ks : List Node) (text : Str), text ≠ [] → outKids ks text = text ++ bodyKids ks
  | [], text, _ => by simp [outKids, bodyKids]
  | k :: ks, text, h => by
    simp only [outKids, bodyKids]
    have he : text.isEmpty = false := by simpa using h
    rw [out_eq k text, he]
    by_cases hk : ks.isEmpty = true
    · rw [if_pos hk, if_pos hk, outKids_eq ks _ (by simp [h])]
      simp
    · rw [if_neg hk, if_neg hk, outKids_eq ks _ (by simp)]
      simp
end

/-! ## Reading a printed node -/

/-- The state after the text of a node, before the next character. -/
inductive After (top : List Node) (rest : List (List Node)) : Node → PSt → Prop where
  | list {t v k ks cur} : After top rest (.mk t v (k :: ks)) ⟨.delimiter, cur, (top ++ [.mk t v (k :: ks)]) :: rest⟩
  | string {v} : After top rest (.mk .string v []) ⟨.quoteOrEnd, v, top :: rest⟩
  | token {t v} : Spec.Token t v → After top rest (.mk t v []) ⟨.nonstring, v, top :: rest⟩
  | empty {cur} : After top rest (.mk .empty [] []) ⟨.value, cur, top :: rest⟩

theorem after_comma {top rest n s} (h : After top rest n s) :
    ∃ cur, step s ',' = .ok ⟨.value, cur, (top ++ [n]) :: rest⟩ := by
  cases h with
  | list => exact ⟨_, rfl⟩
  | string => exact ⟨_, rfl⟩
  | @token t v ht =>
    obtain ⟨_, _, _, hu, hcl⟩ := ht
    refine ⟨v, ?_⟩
    simp only [step, if_true, addClassified, hcl, if_neg hu, addChild, Outcome.ok_bind]
  | empty => exact ⟨_, rfl⟩

theorem after_close {top parent rest n s} (h : After top (parent :: rest) n s)
    (hb : top = [] → n ≠ .mk .empty [] []) :
    ∃ cur, run s ((if n.type = .list then crlf else []) ++ ['}'])
      = .ok ⟨.delimiter, cur, (parent ++ [Node.list (top ++ [n])]) :: rest⟩ := by
  cases h with
  | @list t v k ks cur =>
    refine ⟨cur, ?_⟩
    show run _ ((if t = .list then crlf else []) ++ ['}']) = _
    by_cases ht : t = .list
    · rw [if_pos ht]; rfl
    · rw [if_neg ht]; rfl
  | string => exact ⟨_, rfl⟩
  | @token t v ht =>
    obtain ⟨hne, h0, _, hu, hcl⟩ := ht
    refine ⟨v, ?_⟩
    have hl : t ≠ .list := by
      rintro rfl
      revert hcl
      unfold classify
      repeat' split
      all_goals simp
    have hc : addClassified v (top :: parent :: rest) = .ok ((top ++ [.mk t v []]) :: parent :: rest) := by
      simp only [addClassified, hcl, if_neg hu, addChild]
    show run _ ((if t = .list then crlf else []) ++ ['}']) = _
    rw [if_neg hl]
    simp only [List.nil_append, run, step]
    rw [if_neg (by decide), if_pos trivial, hc]
    rfl
  | @empty cur =>
    refine ⟨cur, ?_⟩
    cases top with
    | nil => exact absurd rfl (hb rfl)
    | cons a b => rfl

theorem wf_list {k ks} (h : Spec.WellFormed (.mk t v (k :: ks))) :
    t = .list ∧ v = [] ∧ (∀ n ∈ k :: ks, Spec.WellFormed n) ∧ Spec.NoBare (k :: ks) := by
  cases h with
  | list h1 h2 => exact ⟨rfl, rfl, h1, h2⟩

mutual
theorem run_body : ∀ (n : Node) (first : Bool) (cur : Str) (top : List Node) (rest : List (List Node)),
    Spec.WellFormed n → ∃ s, run ⟨.value, cur, top :: rest⟩ (body n first) = .ok s ∧ After top rest n s
  | .mk t v [], first, cur, top, rest, h => by
    simp only [body]
    cases h with
    | empty => exact ⟨_, rfl, .empty⟩
    | string v =>
      rw [outLeaf_string, run_quoted]
      exact ⟨_, rfl, .string⟩
    | token ht =>
      have : outLeaf t v = v := by
        obtain ⟨hne, _, _, hu, hcl⟩ := ht
        cases t with
        | string =>
          exfalso; revert hcl; unfold classify
          repeat' split
          all_goals simp
        | empty =>
          exfalso; revert hcl; unfold classify
          rw [if_neg (by simpa using hne)]
          repeat' split
          all_goals simp
        | unknown => exact absurd rfl hu
        | _ => rfl
      rw [this, run_value_token v t _ _ ht]
      exact ⟨_, rfl, .token ht⟩
  | .mk t v (k :: ks), first, cur, top, rest, h => by
    obtain ⟨ht, hv, hk, hb⟩ := wf_list h
    subst ht hv
    simp only [body]
    have hpre : run ⟨.value, cur, top :: rest⟩ ((if first = true then [] else crlf) ++ ['{'])
        = .ok ⟨.value, cur, [] :: top :: rest⟩ := by
      cases first <;> rfl
    have hkids := run_kids (k :: ks) cur [] (top :: rest) (by simp) hk
    obtain ⟨s, n, hs, hn, hl, hsplit⟩ := hkids
    simp only [List.nil_append] at hl
    have hbare : (k :: ks).dropLast = [] → n ≠ .mk .empty [] [] := by
      rintro hd rfl
      rw [hsplit, hd] at hb
      exact hb
    obtain ⟨cur', hc⟩ := after_close hl hbare
    refine ⟨⟨.delimiter, cur', (top ++ [.mk .list [] (k :: ks)]) :: rest⟩, ?_, .list⟩
    have hlast : ((k :: ks).getLast?).map Node.type = some n.type := by
      rw [hsplit]; simp
    rw [List.append_assoc, List.append_assoc, run_append, hpre]
    simp only [Outcome.ok_bind]
    rw [run_append, hs]
    simp only [Outcome.ok_bind]
    simp only [hlast, Option.some.injEq]
    rw [hc, hsplit]
    simp [Node.list]
theorem run_kids : ∀ (ks : List Node) (cur : Str) (top : List Node) (rest : List (List Node)), ks ≠ [] →
    (∀ n ∈ ks, Spec.WellFormed n) →
    ∃ s n, run ⟨.value, cur, top :: rest⟩ (bodyKids ks) = .ok s ∧ ks ≠ [] ∧
      After (top ++ ks.dropLast) rest n s ∧ ks = ks.dropLast ++ [n]
  | [], _, _, _, h, _ => absurd rfl h
  | [k], cur, top, rest, _, h => by
    obtain ⟨s, hs, ha⟩ := run_body k false cur top rest (h k (by simp))
    refine ⟨s, k, ?_, by simp, by simpa using ha, by simp⟩
    simp only [bodyKids, List.isEmpty_nil, if_true, List.append_nil]
    exact hs
  | k :: k2 :: ks, cur, top, rest, _, h => by
    obtain ⟨s, hs, ha⟩ := run_body k false cur top rest (h k (by simp))
    obtain ⟨cur', hcomma⟩ := after_comma ha
    obtain ⟨s2, n, hs2, _, ha2, hsp⟩ := run_kids (k2 :: ks) cur' (top ++ [k]) rest (by simp)
      (fun n hn => h n (by simp only [List.mem_cons] at hn ⊢; exact .inr hn))
    refine ⟨s2, n, ?_, by simp, ?_, ?_⟩
    · rw [bodyKids]
      simp only [List.isEmpty_cons, Bool.false_eq_true, if_false]
      rw [List.append_assoc, run_append, hs]
      simp only [Outcome.ok_bind, List.singleton_append, run, hcomma]
      exact hs2
    · simpa using ha2
    · simp only [List.dropLast_cons₂, List.cons_append]
      rw [← hsp]
end

end Verif.Tree
