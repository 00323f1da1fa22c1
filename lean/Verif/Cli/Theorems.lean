import Verif.Cli.Lemmas

/-! # Property theorems: command lines (C57), quotes (C58), version ranges (C62) -/

namespace Verif.Cli
open Verif Verif.Unicode Verif.Unicode.Spec Verif.Cli.Spec

theorem last_snoc (c d : UInt8) (m : Bytes) : (c :: (m ++ [d])).getLast? = some d := by
  rw [← List.cons_append, List.getLast?_concat]

theorem last_snoc2 (c x d : UInt8) (m : Bytes) : (c :: (m ++ [x, d])).getLast? = some d := by
  rw [show c :: (m ++ [x, d]) = (c :: (m ++ [x])) ++ [d] by simp, List.getLast?_concat]

/-! ## C58: quotes around a parameter -/

/-- **C58 (partial).** A parameter with no quote at its end other than that of an enclosing
pair with something inside comes back without its enclosing quotes, after one test of
the loop condition. The property claims this for every parameter; see
`dequote_empty_ub`, `dequote_enclosed_diverges`, `dequote_trailing_diverges` and
`dequote_strips_single`. -/
theorem dequote_partial (p : Bytes) (h : Clean p) (fuel : Nat) (hf : 0 < fuel) :
    dequote fuel p = .ok (some (unquote p)) := dequote_of_clean p h fuel hf

example : Clean (asc "\"C:\\My base\"") ∧ unquote (asc "\"C:\\My base\"") = asc "C:\\My base" := by decide

/-- Spelled out: text between quotes, and text without quotes. -/
theorem dequote_enclosed_partial (m : Bytes) (c : UInt8) (hc : c ≠ 34) (fuel : Nat) (hf : 0 < fuel) :
    dequote fuel (34 :: (m ++ [c]) ++ [34]) = .ok (some (m ++ [c])) := by
  have hu : unquote (34 :: (m ++ [c]) ++ [34]) = m ++ [c] := by
    unfold unquote
    rw [if_pos (by simp [last_snoc2]), List.cons_append, List.drop_one, List.tail_cons, List.dropLast_concat]
  rw [dequote_of_clean _ (Or.inr ?_) fuel hf, hu]
  rw [hu]
  exact ⟨by simp, by simpa using hc⟩

theorem dequote_plain_partial (p : Bytes) (h : (34 : UInt8) ∉ p) (fuel : Nat) (hf : 0 < fuel) :
    dequote fuel p = .ok (some p) := by
  by_cases h2 : p.length < 2
  · exact if_pos h2
  · have hu : unquote p = p := by
      unfold unquote
      rw [if_neg]
      rintro ⟨_, h3, _⟩
      exact h (List.mem_of_mem_head? h3)
    rw [dequote_of_clean p (Or.inr ?_) fuel hf, hu]
    rw [hu]
    refine ⟨by rintro rfl; simp at h2, fun e => h (List.mem_of_getLast? e)⟩

theorem dequoteLoop_stuck (n fuel : Nat) (r : Bytes) (hl : r.getLast? = some 34) (hn : r.length ≤ n) :
    dequoteLoop n fuel r = .ok none := by
  induction fuel with
  | zero => rfl
  | succ f ih => unfold dequoteLoop; simp only [hl, ↓reduceIte, List.take_of_length_le hn, ih]

/-- A pair of quotes with nothing inside: `back()` of an empty string. -/
theorem dequote_empty_ub (fuel : Nat) (hf : 0 < fuel) : dequote fuel [34, 34] = .ub := by
  obtain ⟨f, rfl⟩ : ∃ f, fuel = f + 1 := ⟨fuel - 1, by omega⟩
  rfl

/-- An enclosed text that itself ends with a quote: the loop never ends. -/
theorem dequote_enclosed_diverges (m : Bytes) (fuel : Nat) :
    dequote fuel (34 :: (m ++ [34]) ++ [34]) = .ok none := by
  unfold dequote
  rw [if_neg (by simp)]
  simp only [List.cons_append, List.head?_cons, List.drop_succ_cons, List.drop_zero]
  rw [if_pos (by simp [last_snoc2])]
  have e : (m ++ [34] ++ [34]).take ((34 :: (m ++ [34] ++ [34])).length - 2) = m ++ [(34 : UInt8)] := by
    rw [List.take_left' (by simp)]
  rw [e]
  exact dequoteLoop_stuck _ _ _ (by rw [List.getLast?_concat]) (by simp)

/-- An unenclosed text that ends with two quotes: the loop never ends. -/
theorem dequote_trailing_diverges (c : UInt8) (hc : c ≠ 34) (m : Bytes) (fuel : Nat) :
    dequote fuel (c :: m ++ [34, 34]) = .ok none := by
  unfold dequote
  rw [if_neg (by simp)]
  simp only [List.cons_append, List.head?_cons, Option.some.injEq, hc, false_and, ↓reduceIte]
  cases fuel with
  | zero => rfl
  | succ f =>
    unfold dequoteLoop
    rw [last_snoc2]
    simp only [↓reduceIte]
    have e : (c :: (m ++ [34, 34])).take ((c :: (m ++ [34, 34])).length - 1) = c :: m ++ [34] := by
      rw [show c :: (m ++ [34, 34]) = (c :: m ++ [34]) ++ [34] by simp, List.take_left' (by simp)]
    rw [e]
    exact dequoteLoop_stuck _ _ _ (last_snoc _ _ _) (by simp)

/-- A single closing quote without an opening one is dropped too. -/
theorem dequote_strips_single (c d : UInt8) (hc : c ≠ 34) (hd : d ≠ 34) (m : Bytes) (fuel : Nat) (hf : 2 ≤ fuel) :
    dequote fuel (c :: m ++ [d, 34]) = .ok (some (c :: m ++ [d])) := by
  unfold dequote
  rw [if_neg (by simp)]
  simp only [List.cons_append, List.head?_cons, Option.some.injEq, hc, false_and, ↓reduceIte]
  obtain ⟨f, rfl⟩ : ∃ f, fuel = f + 2 := ⟨fuel - 2, by omega⟩
  unfold dequoteLoop
  rw [last_snoc2]
  simp only [↓reduceIte]
  have e : (c :: (m ++ [d, 34])).take ((c :: (m ++ [d, 34])).length - 1) = c :: m ++ [d] := by
    rw [show c :: (m ++ [d, 34]) = (c :: m ++ [d]) ++ [34] by simp, List.take_left' (by simp)]
  rw [e]
  unfold dequoteLoop
  rw [List.cons_append, last_snoc]
  simp only [if_neg hd]

example : dequote 5 (asc "C:\\base\"") = .ok (some (asc "C:\\base")) ∧ dequote 1000 (asc "\"C:\\My base\"\"") = .ok none := by
  decide +kernel

/-! ## C57: switches, parameters, the database file -/

/-- **C57a (partial).** A command line that divides into parts (`Reads`) is parsed into one command
for every switch, in order, each with the parameters that follow it (without their
enclosing quotes), the first other argument as the database file, and one report for every missing
parameter, every unknown switch and every further file name. -/
theorem parse_partial (args : List Bytes) (items : List Item) (h : Reads args items) (df : Nat) (hdf : 0 < df) :
    parse df args = .ok (some ⟨file items, commands items, reports none items⟩) := by
  unfold parse
  rw [parseLoop_spec df hdf args items h args.length (Nat.le_refl _)]
  rfl

/-- An argument the parser accepts anywhere on the line: not empty, no quotes at the end besides
an enclosing pair, and valid UTF-8 if it begins with `-`. -/
def Plain (a : Bytes) : Prop :=
  a ≠ [] ∧ Clean a ∧ (a.head? = some 45 → ∃ w, Word w ∧ a = 45 :: utf8Text w)

/-- **C57b.** Every line of plain arguments divides into parts. -/
theorem reads_total (args : List Bytes) (h : ∀ a ∈ args, Plain a) : ∃ items, Reads args items := by
  generalize hn : args.length = n
  induction n using Nat.strongRecOn generalizing args with
  | ind n ih =>
    cases args with
    | nil => exact ⟨[], .nil⟩
    | cons a rest =>
      obtain ⟨hne, hc, hw⟩ := h a List.mem_cons_self
      have hrest : ∀ b ∈ rest, Plain b := fun b hb => h b (List.mem_cons_of_mem _ hb)
      simp only [List.length_cons] at hn
      by_cases hd : a.head? = some 45
      · obtain ⟨w, hword, rfl⟩ := hw hd
        by_cases hs : ∃ s, Names w s
        · obtain ⟨s, hs⟩ := hs
          by_cases hl : rest.length < s.2.2
          · exact ⟨_, .short hword hs hl (fun p hp => (hrest p hp).2.1)⟩
          · obtain ⟨items, hi⟩ := ih (rest.drop s.2.2).length (by rw [List.length_drop]; omega) (rest.drop s.2.2)
              (fun b hb => hrest b (List.mem_of_mem_drop hb)) rfl
            have := Reads.full (ps := rest.take s.2.2) hword hs (by rw [List.length_take]; omega)
              (fun p hp => (hrest p (List.mem_of_mem_take hp)).2.1) hi
            rw [List.take_append_drop] at this
            exact ⟨_, this⟩
        · obtain ⟨items, hi⟩ := ih rest.length (by omega) rest hrest rfl
          exact ⟨_, .unknown hword (fun s hs' => hs ⟨s, hs'⟩) hi⟩
      · obtain ⟨items, hi⟩ := ih rest.length (by omega) rest hrest rfl
        exact ⟨_, .other hne hd hc hi⟩

/-- The names of the switches differ even when case is ignored, so a line divides in one way. -/
theorem names_unique (w : List Nat) (s t : String × Command × Nat) (hs : Names w s) (ht : Names w t) : s = t := by
  have key : ∀ s ∈ switches, ∀ t ∈ switches, asc s.1 = asc t.1 → s = t := by decide +kernel
  exact key s hs.1 t ht.1 ((find_named w s hs).1.symm.trans (find_named w t ht).1)

theorem utf8Text_word_inj (w v : List Nat) (hw : Word w) (hv : Word v) (h : utf8Text w = utf8Text v) : w = v :=
  utf8Text_inj w v (fun c hc => (hw c hc).1) (fun c hc => (hv c hc).1) h

/-- **C57c.** A line divides into parts in one way only. -/
theorem reads_unique (args : List Bytes) (i j : List Item) (hi : Reads args i) (hj : Reads args j) : i = j := by
  induction hi generalizing j with
  | nil => cases hj; rfl
  | @full w s ps rest items hw hn hl hc _ ih =>
    generalize he : (45 :: utf8Text w) :: (ps ++ rest) = l at hj
    cases hj with
    | nil => simp at he
    | @full w' s' ps' rest' items' hw' hn' hl' hc' hr' =>
      simp only [List.cons.injEq, true_and] at he
      have hww := utf8Text_word_inj w w' hw hw' he.1
      subst hww
      have hss := names_unique w s s' hn hn'
      subst hss
      obtain ⟨h1, h2⟩ := List.append_inj he.2 (by omega)
      subst h1; subst h2
      rw [ih _ hr']
    | @short w' s' ps' hw' hn' hl' hc' =>
      simp only [List.cons.injEq, true_and] at he
      have hww := utf8Text_word_inj w w' hw hw' he.1
      subst hww
      have hss := names_unique w s s' hn hn'
      subst hss
      have := congrArg List.length he.2
      simp only [List.length_append] at this
      omega
    | @unknown w' rest' items' hw' hn' hr' =>
      simp only [List.cons.injEq, true_and] at he
      have hww := utf8Text_word_inj w w' hw hw' he.1
      subst hww
      exact absurd hn (hn' s)
    | @other a rest' items' hne hd hc' hr' =>
      simp only [List.cons.injEq] at he
      exact absurd (by rw [← he.1]; rfl) hd
  | @short w s ps hw hn hl hc =>
    generalize he : (45 :: utf8Text w) :: ps = l at hj
    cases hj with
    | nil => simp at he
    | @full w' s' ps' rest' items' hw' hn' hl' hc' hr' =>
      simp only [List.cons.injEq, true_and] at he
      have hww := utf8Text_word_inj w w' hw hw' he.1
      subst hww
      have hss := names_unique w s s' hn hn'
      subst hss
      have := congrArg List.length he.2
      simp only [List.length_append] at this
      omega
    | @short w' s' ps' hw' hn' hl' hc' =>
      simp only [List.cons.injEq, true_and] at he
      have hww := utf8Text_word_inj w w' hw hw' he.1
      subst hww
      have hss := names_unique w s s' hn hn'
      subst hss
      rw [he.2]
    | @unknown w' rest' items' hw' hn' hr' =>
      simp only [List.cons.injEq, true_and] at he
      have hww := utf8Text_word_inj w w' hw hw' he.1
      subst hww
      exact absurd hn (hn' s)
    | @other a rest' items' hne hd hc' hr' =>
      simp only [List.cons.injEq] at he
      exact absurd (by rw [← he.1]; rfl) hd
  | @unknown w rest items hw hn _ ih =>
    generalize he : (45 :: utf8Text w) :: rest = l at hj
    cases hj with
    | nil => simp at he
    | @full w' s' ps' rest' items' hw' hn' hl' hc' hr' =>
      simp only [List.cons.injEq, true_and] at he
      have hww := utf8Text_word_inj w w' hw hw' he.1
      subst hww
      exact absurd hn' (hn s')
    | @short w' s' ps' hw' hn' hl' hc' =>
      simp only [List.cons.injEq, true_and] at he
      have hww := utf8Text_word_inj w w' hw hw' he.1
      subst hww
      exact absurd hn' (hn s')
    | @unknown w' rest' items' hw' hn' hr' =>
      simp only [List.cons.injEq, true_and] at he
      have hww := utf8Text_word_inj w w' hw hw' he.1
      subst hww
      have := he.2
      subst this
      rw [ih _ hr']
    | @other a rest' items' hne hd hc' hr' =>
      simp only [List.cons.injEq] at he
      exact absurd (by rw [← he.1]; rfl) hd
  | @other a rest items hne hd hc _ ih =>
    generalize he : a :: rest = l at hj
    cases hj with
    | nil => simp at he
    | full => simp only [List.cons.injEq] at he; exact absurd (by rw [he.1]; rfl) hd
    | short => simp only [List.cons.injEq] at he; exact absurd (by rw [he.1]; rfl) hd
    | unknown => simp only [List.cons.injEq] at he; exact absurd (by rw [he.1]; rfl) hd
    | @other a' rest' items' hne' hd' hc' hr' =>
      simp only [List.cons.injEq] at he
      obtain ⟨rfl, rfl⟩ := he
      rw [ih _ hr']

example : parse 5 [asc "base.1CD", asc "-Ex", asc "\"out dir\"", asc "conf*", asc "-X", asc "-L"] =
    .ok (some ⟨asc "base.1CD", [⟨.export_to_xml, asc "out dir", asc "conf*", []⟩, ⟨.logfile, [], [], []⟩],
      [.unknown (asc "x"), .missing (asc "l")]⟩) := by decide +kernel

example : ∀ a ∈ [asc "base.1CD", asc "-Ex", asc "\"out dir\"", asc "conf*", asc "-X", asc "-L"], Plain a := by
  have hx : Plain (asc "-Ex") := ⟨by decide, by decide, fun _ => ⟨[0x45, 0x78], by unfold Word; decide, by decide⟩⟩
  have hX : Plain (asc "-X") := ⟨by decide, by decide, fun _ => ⟨[0x58], by unfold Word; decide, by decide⟩⟩
  have hL : Plain (asc "-L") := ⟨by decide, by decide, fun _ => ⟨[0x4c], by unfold Word; decide, by decide⟩⟩
  intro a ha
  simp only [List.mem_cons, List.not_mem_nil, or_false] at ha
  rcases ha with rfl | rfl | rfl | rfl | rfl | rfl
  · exact ⟨by decide, by decide, fun h => absurd h (by decide)⟩
  · exact hx
  · exact ⟨by decide, by decide, fun h => absurd h (by decide)⟩
  · exact ⟨by decide, by decide, fun h => absurd h (by decide)⟩
  · exact hX
  · exact hL

/-- An empty argument outside parameters: `front()` of an empty string. -/
theorem empty_argument_ub (df : Nat) (rest : List Bytes) : parse df ([] :: rest) = .ub := rfl

/-- A switch that is not valid UTF-8 makes the constructor fail. -/
theorem bad_switch_fails (df : Nat) (word : Bytes) (rest : List Bytes)
    (h : ∀ cps, (∀ c ∈ cps, Scalar c) → word ≠ utf8Text cps) (r : Option State) :
    parse df ((45 :: word) :: rest) ≠ .ok r := by
  have hl : ∀ v, lowerCase word ≠ .ok v := by
    intro v hv
    unfold lowerCase caseFold at hv
    cases hd : decodeAll word.length word with
    | throw => rw [hd] at hv; cases hv
    | ub => rw [hd] at hv; cases hv
    | ok cps =>
      obtain ⟨h1, h2⟩ := decodeAll_sound _ _ _ hd
      first
        | exact h cps h1 h2
        | exact h cps h2 h1
        | exact h cps h1 h2.symm
        | exact h cps h2 h1.symm
  unfold parse
  rw [List.length_cons, parseLoop]
  simp only [↓reduceIte]
  cases hw : lowerCase word with
  | throw => simp
  | ub => simp
  | ok v => exact absurd hw (hl v)

/-- The help text calls the parameter of `-bf` and `-pb` optional (`[yes/no]`), but the parser always
takes the next argument: written before the database file, they leave no database file. -/
theorem bf_takes_file (f : Bytes) (hf : Clean f) (df : Nat) (hdf : 0 < df) :
    parse df [asc "-bf", f] = .ok (some ⟨[], [⟨.xml_blob_to_file, unquote f, [48], []⟩], []⟩) :=
  parse_partial [asc "-bf", f] [.full ("bf", .xml_blob_to_file, 1) [f]]
    (Reads.full (w := [0x62, 0x66]) (ps := [f]) (rest := []) (by unfold Word; decide)
      ⟨by decide, by simp [letters, SameText, SameLetter]⟩ rfl (by simpa using hf) .nil) df hdf

/-! ## The options -/

/-- **C57d.** `-bf` and `-pb` are switched on by 1, y, yes, д, да in any case, and by nothing else. -/
theorem isTrueString_iff (w : List Nat) (hw : Word w) :
    isTrueString (utf8Text w) = .ok true ↔
      (SameText w [0x31] ∨ SameText w [0x79] ∨ SameText w [0x79, 0x65, 0x73] ∨ SameText w [0x434] ∨
        SameText w [0x434, 0x430]) := by
  unfold isTrueString
  rw [lower_word w hw, Outcome.ok_bind]
  have hs : ∀ c ∈ w.map toLower, Scalar c := by
    intro c hc
    obtain ⟨a, ha, rfl⟩ := List.mem_map.1 hc
    exact toLower_scalar a (hw a ha).1
  have key : ∀ (b : Bytes) (v : List Nat), v.map toLower = v → utf8Text v = b → (∀ c ∈ v, Scalar c) →
      (utf8Text (w.map toLower) = b ↔ SameText w v) := by
    intro b v h1 h2 h3
    rw [← map_same toLower toLower_same, h1, ← h2]
    exact ⟨fun e => utf8Text_inj _ _ hs h3 e, fun e => by rw [e]⟩
  rw [← key (asc "1") [0x31] (by decide) (by decide) (by decide),
    ← key (asc "y") [0x79] (by decide) (by decide) (by decide),
    ← key (asc "yes") [0x79, 0x65, 0x73] (by decide) (by decide) (by decide),
    ← key [0xd0, 0xb4] [0x434] (by decide) (by decide) (by decide),
    ← key [0xd0, 0xb4, 0xd0, 0xb0] [0x434, 0x430] (by decide) (by decide) (by decide)]
  simp only [Outcome.ok.injEq, Bool.or_eq_true, decide_eq_true_eq, or_assoc]

example : isTrueString (asc "YES") = .ok true ∧ isTrueString (asc "no") = .ok false := by decide

/-! ## C62: the version range of `-dpc` -/


theorem digit_byte (d : Nat) (h : d < 10) : (UInt8.ofNat (48 + d)).toNat = 48 + d := by
  rw [UInt8.toNat_ofNat']; omega

theorem digitsVal_digits (ds : List Nat) (hd : ∀ d ∈ ds, d < 10) (v : Nat) (rest : Bytes)
    (hr : ∀ c, rest.head? = some c → ¬ (48 ≤ c.toNat ∧ c.toNat ≤ 57)) :
    digitsVal v (Spec.digits ds ++ rest) = ds.foldl (fun v d => v * 10 + d) v := by
  induction ds generalizing v with
  | nil =>
    cases rest with
    | nil => rfl
    | cons c r =>
      rw [show Spec.digits [] ++ c :: r = c :: r from rfl, digitsVal, if_neg (hr c rfl)]
      rfl
  | cons d ds ih =>
    have h := digit_byte d (hd d List.mem_cons_self)
    have h10 := hd d List.mem_cons_self
    rw [show Spec.digits (d :: ds) ++ rest = UInt8.ofNat (48 + d) :: (Spec.digits ds ++ rest) from rfl,
      digitsVal, if_pos (by omega), h, ih (fun x hx => hd x (List.mem_cons_of_mem _ hx)),
      show 48 + d - 48 = d by omega]
    rfl

/-- A whole number, with or without a minus sign, is read as itself. -/
theorem readInt_number (neg : Bool) (ds : List Nat) (hne : ds ≠ []) (hd : ∀ d ∈ ds, d < 10) (rest : Bytes)
    (hr : ∀ c, rest.head? = some c → ¬ (48 ≤ c.toNat ∧ c.toNat ≤ 57)) :
    readInt ((if neg then [45] else []) ++ (Spec.digits ds ++ rest)) =
      some (if neg then -(Spec.value ds : Int) else Spec.value ds) := by
  obtain ⟨d, ds', rfl⟩ := List.exists_cons_of_ne_nil hne
  have h10 := hd d List.mem_cons_self
  have h := digit_byte d h10
  have hcons : Spec.digits (d :: ds') ++ rest = UInt8.ofNat (48 + d) :: (Spec.digits ds' ++ rest) := rfl
  have hv := digitsVal_digits (d :: ds') hd 0 rest hr
  have hvv : (d :: ds').foldl (fun v d => v * 10 + d) 0 = Spec.value (d :: ds') := rfl
  rw [hvv] at hv
  generalize Spec.value (d :: ds') = v at *
  generalize Spec.digits (d :: ds') ++ rest = t at *
  have h45 : UInt8.ofNat (48 + d) ≠ 45 := fun e => by rw [e] at h; simp at h; omega
  have h43 : UInt8.ofNat (48 + d) ≠ 43 := fun e => by rw [e] at h; simp at h; omega
  have hsp : isSpace (UInt8.ofNat (48 + d)) = false := by
    unfold isSpace
    have h32 : UInt8.ofNat (48 + d) ≠ 32 := fun e => by rw [e] at h; simp at h; omega
    simp only [h32, decide_false, Bool.false_or, h]
    simp; omega
  unfold readInt
  cases neg with
  | false =>
    simp only [Bool.false_eq_true, ↓reduceIte, List.nil_append]
    have hdw : t.dropWhile isSpace = t := by
      rw [hcons, List.dropWhile_cons_of_neg (by rw [hsp]; exact Bool.false_ne_true)]
    have hsg : sign t = (false, t) := by rw [hcons]; simp only [sign, if_neg h45, if_neg h43]
    rw [hdw, hsg, hcons]
    simp only [h]
    rw [← hcons, hv, if_pos (by omega)]
    simp
  | true =>
    simp only [↓reduceIte, List.cons_append, List.nil_append]
    have hdw : ((45 : UInt8) :: t).dropWhile isSpace = 45 :: t := List.dropWhile_cons_of_neg (by decide)
    have hsg : sign ((45 : UInt8) :: t) = (true, t) := by simp [sign]
    rw [hdw, hsg, hcons]
    simp only [h]
    rw [← hcons, hv, if_pos (by omega)]
    simp

theorem fits_number (neg : Bool) (v : Nat) (h : v < 2147483648) :
    fitsInt (if neg then -(v : Int) else v) = true := by
  unfold fitsInt
  cases neg <;> simp <;> omega

theorem toIntDef_number (neg : Bool) (ds : List Nat) (hne : ds ≠ []) (hd : ∀ d ∈ ds, d < 10)
    (hfit : Spec.value ds < 2147483648) (rest : Bytes)
    (hr : ∀ c, rest.head? = some c → ¬ (48 ≤ c.toNat ∧ c.toNat ≤ 57)) (dflt : Int) :
    toIntDef ((if neg then [45] else []) ++ (Spec.digits ds ++ rest)) dflt =
      .ok (if neg then -(Spec.value ds : Int) else Spec.value ds) := by
  unfold toIntDef
  rw [readInt_number neg ds hne hd rest hr]
  exact if_pos (fits_number neg _ hfit)

theorem findColon_none (s : Bytes) (h : (58 : UInt8) ∉ s) : findColon s = none := by
  induction s with
  | nil => rfl
  | cons c s ih =>
    rw [findColon, if_neg (fun e => h (by rw [e]; exact List.mem_cons_self)), ih (fun e => h (List.mem_cons_of_mem _ e))]
    rfl

theorem findColon_at (a b : Bytes) (h : (58 : UInt8) ∉ a) : findColon (a ++ 58 :: b) = some a.length := by
  induction a with
  | nil => rfl
  | cons c s ih =>
    rw [List.cons_append, findColon, if_neg (fun e => h (by rw [e]; exact List.mem_cons_self)),
      ih (fun e => h (List.mem_cons_of_mem _ e))]
    rfl

/-- A version number as written on the command line. -/
def Spec.number (neg : Bool) (ds : List Nat) : Bytes := (if neg then [45] else []) ++ Spec.digits ds

/-- The version number meant. -/
def Spec.meaning (neg : Bool) (ds : List Nat) : Int := if neg then -(Spec.value ds : Int) else Spec.value ds

theorem digits_no_colon (ds : List Nat) (hd : ∀ d ∈ ds, d < 10) : (58 : UInt8) ∉ Spec.digits ds := by
  intro h
  obtain ⟨d, hm, e⟩ := List.mem_map.1 h
  have := digit_byte d (hd d hm)
  rw [e] at this
  have h10 := hd d hm
  simp at this
  omega

theorem number_no_colon (neg : Bool) (ds : List Nat) (hd : ∀ d ∈ ds, d < 10) : (58 : UInt8) ∉ Spec.number neg ds := by
  have := digits_no_colon ds hd
  unfold Spec.number
  cases neg <;> simp [this]

/-- **C62 (partial).** One version number is a range of that version alone. -/
theorem range_single_partial (neg : Bool) (ds : List Nat) (hne : ds ≠ []) (hd : ∀ d ∈ ds, d < 10)
    (hfit : Spec.value ds < 2147483648) :
    versionRange (Spec.number neg ds) = .ok (Spec.meaning neg ds, Spec.meaning neg ds) := by
  unfold versionRange
  rw [findColon_none _ (number_no_colon neg ds hd)]
  have := toIntDef_number neg ds hne hd hfit [] (by simp) 0
  rw [List.append_nil] at this
  unfold Spec.number
  simp only [this]
  rfl

example : Spec.number true [1, 2] = asc "-12" ∧ Spec.meaning true [1, 2] = -12 := by decide

/-- In a range `a:b` the end is read correctly, but the last digit of the begin is cut off
(App.cpp:468 takes `splitter - 1` characters). -/
theorem range_begin_cut (na nb : Bool) (as bs : List Nat) (d : Nat) (ha : as ≠ []) (hb : bs ≠ [])
    (hda : ∀ x ∈ as, x < 10) (hd : d < 10) (hdb : ∀ x ∈ bs, x < 10) (fa : Spec.value as < 2147483648)
    (fb : Spec.value bs < 2147483648) :
    versionRange (Spec.number na (as ++ [d]) ++ 58 :: Spec.number nb bs) =
      .ok (Spec.meaning na as, Spec.meaning nb bs) := by
  have hall : ∀ x ∈ as ++ [d], x < 10 := by
    intro x hx
    rcases List.mem_append.1 hx with h | h
    · exact hda x h
    · rw [List.mem_singleton.1 h]; exact hd
  unfold versionRange
  rw [findColon_at _ _ (number_no_colon na _ hall)]
  simp only
  rw [show (Spec.number na (as ++ [d]) ++ 58 :: Spec.number nb bs).drop ((Spec.number na (as ++ [d])).length + 1)
    = Spec.number nb bs by
      rw [← List.drop_drop, List.drop_left' rfl]; rfl]
  have hcut : substrTo (Spec.number na (as ++ [d]) ++ 58 :: Spec.number nb bs) (Spec.number na (as ++ [d])).length =
      Spec.number na as := by
    have hn : Spec.number na (as ++ [d]) = Spec.number na as ++ [UInt8.ofNat (48 + d)] := by
      unfold Spec.number Spec.digits
      rw [List.map_append, List.append_assoc]
      rfl
    unfold substrTo
    rw [hn, List.append_assoc, if_neg (by simp), List.take_left' (by simp)]
  rw [hcut]
  have e1 := toIntDef_number na as ha hda fa [] (by simp) 0
  have e2 := toIntDef_number nb bs hb hdb fb [] (by simp) 0
  rw [List.append_nil] at e1 e2
  unfold Spec.number
  rw [e1, e2]
  rfl

/-- The range 10:12 becomes 1:12, and 5:7 becomes 0:7, that is, from the last version. -/
theorem range_begin_wrong : versionRange (asc "10:12") = .ok (1, 12) ∧ versionRange (asc "5:7") = .ok (0, 7) := by
  decide

/-- A number that does not fit in `int` is not caught by `ToIntDef`. -/
theorem version_overflow_throws : toIntDef (asc "2147483648") 0 = .throw := by decide

end Verif.Cli
