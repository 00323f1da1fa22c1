import Verif.TableList.Model
import Verif.TableList.Spec
import Verif.Format.Theorems

/-!
# C98: testing that the tables of the list are there
-/

namespace Verif.TableList
open Verif Verif.Unicode Verif.Unicode.Spec Verif.TableList.Spec Verif.Format Verif.Format.Spec

/-! ## Names -/

theorem ascii_name {n : List Nat} (h : Ascii n) : Name n := fun c hc => ⟨Or.inl (by have := h c hc; omega), by have := h c hc; omega⟩

theorem ascii_bytes : ∀ {n : List Nat}, Ascii n → utf8Text n = n.map UInt8.ofNat
  | [], _ => rfl
  | c :: n, h => by
    have hc := h c (by simp)
    have := ascii_bytes (n := n) (fun x hx => h x (by simp [hx]))
    unfold utf8Text at this ⊢
    rw [List.flatMap_cons, this, List.map_cons]
    unfold utf8
    rw [if_pos (by omega)]
    rfl

theorem ascii_append {a b : List Nat} (ha : Ascii a) (hb : Ascii b) : Ascii (a ++ b) := by
  intro c hc
  rcases List.mem_append.1 hc with h | h
  · exact ha c h
  · exact hb c h

theorem sameText_length : ∀ {a b : List Nat}, SameText a b → a.length = b.length
  | [], [], _ => rfl
  | _ :: a, _ :: b, h => by
    have := sameText_length (a := a) (b := b) h.2
    simp only [List.length_cons]; omega
  | [], _ :: _, h => absurd h (by simp [SameText])
  | _ :: _, [], h => absurd h (by simp [SameText])

/-- The end of a name, for names in ASCII. -/
theorem endsWith_spec (a b : List Nat) (ha : Ascii a) (hb : Ascii b) (hne : b ≠ []) :
    (endsWithIC (utf8Text a) (utf8Text b) = .ok true ↔ ∃ p q, a = p ++ q ∧ SameText q b) ∧
    (endsWithIC (utf8Text a) (utf8Text b) = .ok false ↔ ¬ ∃ p q, a = p ++ q ∧ SameText q b) := by
  have hiff := endsWithIC_iff a b (ascii_name ha) (ascii_name hb) hne
  refine ⟨hiff, ?_⟩
  have htot : endsWithIC (utf8Text a) (utf8Text b) = .ok true ∨ endsWithIC (utf8Text a) (utf8Text b) = .ok false := by
    rw [ascii_bytes ha, ascii_bytes hb]
    unfold endsWithIC
    split
    · exact Or.inl rfl
    · split
      · exact Or.inr rfl
      · rw [← List.map_drop]
        generalize (a.map UInt8.ofNat).length - (b.map UInt8.ofNat).length = k
        have hd : Ascii (a.drop k) := fun c hc => ha c (List.mem_of_mem_drop hc)
        rw [← ascii_bytes hd, ← ascii_bytes hb]
        obtain ⟨h1, h2⟩ := equalIC_iff _ b (ascii_name hd) (ascii_name hb)
        by_cases h : SameText (a.drop k) b
        · exact Or.inl (h1.2 h)
        · exact Or.inr (h2.2 h)
  rw [← hiff]
  rcases htot with h | h <;> rw [h] <;> simp

theorem asc_word (w : String) (h : Ascii (word w)) : Cli.asc w = utf8Text (word w) := asc_utf8 w (fun c hc => (h c hc).2)

theorem anyOf_spec (n : List Nat) (hn : Name n) : ∀ (ws : List String), (∀ w ∈ ws, Ascii (word w)) →
    ((∃ w ∈ ws, SameText n (word w)) → anyOf (utf8Text n) ws = .ok true) ∧
    ((∀ w ∈ ws, ¬ SameText n (word w)) → anyOf (utf8Text n) ws = .ok false)
  | [], _ => by simp [anyOf]
  | w :: ws, h => by
    have hw := h w (by simp)
    obtain ⟨i1, i2⟩ := anyOf_spec n hn ws (fun v hv => h v (by simp [hv]))
    obtain ⟨e1, e2⟩ := equalIC_iff n (word w) hn (ascii_name hw)
    rw [anyOf, asc_word w hw]
    by_cases hs : SameText n (word w)
    · rw [e1.2 hs]
      exact ⟨fun _ => rfl, fun hno => absurd hs (hno w (by simp))⟩
    · rw [e2.2 hs]
      simp only [Outcome.ok_bind, Bool.false_eq_true, if_false]
      constructor
      · rintro ⟨v, hv, hsv⟩
        rcases List.mem_cons.1 hv with rfl | hv
        · exact absurd hsv hs
        · exact i1 ⟨v, hv, hsv⟩
      · intro hno
        exact i2 (fun v hv => hno v (by simp [hv]))

theorem slave_spec (n : List Nat) (hn : Name n) :
    ((∃ w ∈ partWords, SameText n (word w)) → slave (utf8Text n) = .ok true) ∧
    ((∀ w ∈ partWords, ¬ SameText n (word w)) → slave (utf8Text n) = .ok false) := by
  have h1 : Ascii (word "VT") := by unfold Ascii; decide
  have h2 : Ascii (word "ExtDim") := by unfold Ascii; decide
  obtain ⟨a1, a2⟩ := equalIC_iff n (word "VT") hn (ascii_name h1)
  obtain ⟨b1, b2⟩ := equalIC_iff n (word "ExtDim") hn (ascii_name h2)
  unfold slave partWords
  rw [asc_word _ h1, asc_word _ h2]
  by_cases x : SameText n (word "VT") <;> by_cases y : SameText n (word "ExtDim")
  · rw [a1.2 x, b1.2 y]; simp [x]
  · rw [a1.2 x, b2.2 y]; simp [x]
  · rw [a2.2 x, b1.2 y]; simp [y]
  · rw [a2.2 x, b2.2 y]; simp [x, y]

theorem search_spec (isSlave : Bool) (n : List Nat) (hn : Ascii n) (hne : n ≠ []) : ∀ (ts : List (List Nat)), (∀ t ∈ ts, Ascii t) →
    ((∃ t ∈ ts, if isSlave then ∃ p q, t = p ++ q ∧ SameText q n else SameText t n) → search isSlave (utf8Text n) (ts.map utf8Text) = .ok true) ∧
    ((∀ t ∈ ts, ¬ if isSlave then ∃ p q, t = p ++ q ∧ SameText q n else SameText t n) → search isSlave (utf8Text n) (ts.map utf8Text) = .ok false)
  | [], _ => by simp [search]
  | t :: ts, h => by
    have ht := h t (by simp)
    obtain ⟨i1, i2⟩ := search_spec isSlave n hn hne ts (fun v hv => h v (by simp [hv]))
    have key : ((if isSlave then endsWithIC (utf8Text t) (utf8Text n) else equalIC (utf8Text t) (utf8Text n)) = .ok true ↔
        if isSlave then ∃ p q, t = p ++ q ∧ SameText q n else SameText t n) ∧
        ((if isSlave then endsWithIC (utf8Text t) (utf8Text n) else equalIC (utf8Text t) (utf8Text n)) = .ok false ↔
        ¬ if isSlave then ∃ p q, t = p ++ q ∧ SameText q n else SameText t n) := by
      cases isSlave with
      | true => exact endsWith_spec t n ht hn hne
      | false => exact equalIC_iff t n (ascii_name ht) (ascii_name hn)
    rw [List.map_cons, search]
    by_cases hs : if isSlave then ∃ p q, t = p ++ q ∧ SameText q n else SameText t n
    · rw [key.1.2 hs]
      exact ⟨fun _ => rfl, fun hno => absurd hs (hno t (by simp))⟩
    · rw [key.2.2 hs]
      simp only [Outcome.ok_bind, Bool.false_eq_true, if_false]
      constructor
      · rintro ⟨v, hv, hsv⟩
        rcases List.mem_cons.1 hv with rfl | hv
        · exact absurd hsv hs
        · exact i1 ⟨v, hv, hsv⟩
      · intro hno
        exact i2 (fun v hv => hno v (by simp [hv]))

/-! ## Entries -/

theorem bytes_shown (b : Bytes) : Vendor.bytes (b.map fun x => Char.ofNat x.toNat) = b := by
  unfold Vendor.bytes
  rw [List.map_map]
  conv => rhs; rw [← List.map_id b]
  apply List.map_congr_left
  intro x _
  have hx := x.toNat_lt
  have : (Char.ofNat x.toNat).toNat = x.toNat := by
    have : ∀ i : Fin 256, (Char.ofNat i.val).toNat = i.val := by decide +kernel
    exact this ⟨x.toNat, hx⟩
  simp [this]

theorem testItem_spec (tables : List (List Nat)) (ht : ∀ t ∈ tables, Ascii t) (t a b c : Tree.Node) (e : Item) (h0 : t.kids[0]? = some a)
    (h1 : t.kids[1]? = some b) (h2 : t.kids[2]? = some c) (ha : a.value = (utf8Text e.guid).map fun x => Char.ofNat x.toNat)
    (hb : b.value = (utf8Text e.name).map fun x => Char.ofNat x.toNat) (hc : c.value = (utf8Text e.num).map fun x => Char.ofNat x.toNat)
    (hg : Ascii e.guid) (hn : Ascii e.name) (hm : Ascii e.num) :
    ((e.Required → e.Present tables) → testItem (tables.map utf8Text) t = .ok ()) ∧
    (¬ (e.Required → e.Present tables) → testItem (tables.map utf8Text) t = .throw) := by
  have s0 : subvalue t 0 = .ok (utf8Text e.guid) := by unfold subvalue; rw [h0]; simp only; rw [ha, bytes_shown]
  have s1 : subvalue t 1 = .ok (utf8Text e.name) := by unfold subvalue; rw [h1]; simp only; rw [hb, bytes_shown]
  have s2 : subvalue t 2 = .ok (utf8Text e.num) := by unfold subvalue; rw [h2]; simp only; rw [hc, bytes_shown]
  obtain ⟨a1, a2⟩ := anyOf_spec e.name (ascii_name hn) SKIPPED (by unfold SKIPPED Ascii word; decide)
  unfold testItem
  rw [s1, Outcome.ok_bind]
  by_cases hsk : ∃ w ∈ SKIPPED, SameText e.name (word w)
  · rw [a1 hsk]
    have : ¬ e.Required := by
      rintro ⟨_, h⟩
      obtain ⟨w, hw, hs⟩ := hsk
      exact h w hw hs
    simp [this]
  · have hno : ∀ w ∈ SKIPPED, ¬ SameText e.name (word w) := fun w hw hs => hsk ⟨w, hw, hs⟩
    rw [a2 hno]
    simp only [Outcome.ok_bind, Bool.false_eq_true, if_false]
    have hslave : ∃ s, slave (utf8Text e.name) = .ok s ∧ (s = true ↔ ∃ w ∈ partWords, SameText e.name (word w)) := by
      obtain ⟨p1, p2⟩ := slave_spec e.name (ascii_name hn)
      by_cases h : ∃ w ∈ partWords, SameText e.name (word w)
      · exact ⟨true, p1 h, by simpa using h⟩
      · exact ⟨false, p2 (fun w hw hs => h ⟨w, hw, hs⟩), by simpa using h⟩
    obtain ⟨s, hs, hiff⟩ := hslave
    rw [hs, Outcome.ok_bind, s0, Outcome.ok_bind, s2, Outcome.ok_bind]
    have hz : Ascii noGuid := by unfold Ascii noGuid; decide
    by_cases hgz : e.guid = noGuid
    · rw [if_pos (by rw [hgz]; exact (asc_word _ hz).symm)]
      have : ¬ e.Required := fun h => h.1 hgz
      simp [this]
    · have hne : utf8Text e.guid ≠ EMPTY_GUID := by
        intro h
        have e' : EMPTY_GUID = utf8Text noGuid := asc_word _ hz
        rw [e'] at h
        exact hgz (utf8Text_inj _ _ (fun c hc => (ascii_name hg c hc).1) (fun c hc => (ascii_name hz c hc).1) h)
      rw [if_neg hne]
      have hreq : e.Required := ⟨hgz, hno⟩
      have hu : Ascii (word "_") := by unfold Ascii; decide
      have htab : Cli.asc "_" ++ utf8Text e.name ++ utf8Text e.num = utf8Text e.table := by
        rw [asc_word _ hu]
        unfold Item.table utf8Text
        rw [List.flatMap_append, List.flatMap_append]
      have hta : Ascii e.table := ascii_append (ascii_append hu hn) hm
      obtain ⟨q1, q2⟩ := search_spec s e.table hta (by unfold Item.table word; simp) tables ht
      rw [htab]
      have hpres : e.Present tables ↔ ∃ t ∈ tables, if s then ∃ p q, t = p ++ q ∧ SameText q e.table else SameText t e.table := by
        unfold Item.Present
        cases s with
        | true =>
          have h := hiff.1 rfl
          simp only [if_true]
          constructor
          · rintro (⟨_, h'⟩ | ⟨h', _⟩)
            · exact h'
            · obtain ⟨w, hw, hs⟩ := h
              exact absurd hs (h' w hw)
          · intro h'; exact Or.inl ⟨h, h'⟩
        | false =>
          have h : ¬ ∃ w ∈ partWords, SameText e.name (word w) := fun h => absurd (hiff.2 h) (by simp)
          simp only [Bool.false_eq_true, if_false]
          constructor
          · rintro (⟨h', _⟩ | ⟨_, h'⟩)
            · exact absurd h' h
            · exact h'
          · intro h'; exact Or.inr ⟨fun w hw hs => h ⟨w, hw, hs⟩, h'⟩
      constructor
      · intro h
        rw [q1 (hpres.1 (h hreq))]; rfl
      · intro h
        rw [q2 (fun t ht hh => h (fun _ => hpres.2 ⟨t, ht, hh⟩))]; rfl

theorem testItems_spec (tables : List (List Nat)) (ht : ∀ t ∈ tables, Ascii t) {nodes : List Tree.Node} {es : List Item} (h : Entries nodes es)
    (ha : ∀ e ∈ es, Ascii e.guid ∧ Ascii e.name ∧ Ascii e.num) :
    ((∀ e ∈ es, e.Required → e.Present tables) → testItems (tables.map utf8Text) nodes = .ok ()) ∧
    (¬ (∀ e ∈ es, e.Required → e.Present tables) → testItems (tables.map utf8Text) nodes = .throw) := by
  induction h with
  | nil => simp [testItems]
  | @cons t ts a b c e es h0 h1 h2 h3 h4 h5 _ ih =>
    obtain ⟨g1, g2, g3⟩ := ha e (by simp)
    obtain ⟨p1, p2⟩ := testItem_spec tables ht t a b c e h0 h1 h2 h3 h4 h5 g1 g2 g3
    obtain ⟨i1, i2⟩ := ih (fun e he => ha e (by simp [he]))
    rw [testItems]
    by_cases he : e.Required → e.Present tables
    · rw [p1 he, Outcome.ok_bind]
      constructor
      · intro h; exact i1 (fun e he => h e (by simp [he]))
      · intro h
        refine i2 (fun h' => h ?_)
        intro x hx
        rcases List.mem_cons.1 hx with rfl | hx
        · exact he
        · exact h' x hx
    · rw [p2 he]
      exact ⟨fun h => absurd (h e (by simp)) he, fun _ => rfl⟩

/-! ## The text -/

theorem firstSymbol_brace (sf : Bytes) : firstSymbol sf = 0x7B ↔ (body (sf.drop 1)).head? = some 0x7B := by
  unfold firstSymbol
  split
  · rename_i h; subst h; simp [body]
  · generalize sf.drop 1 = s
    have key : ∀ (s : Bytes) (i : Nat) (c : UInt8), (Format.firstSymbol i c (s ++ [0])).2 = ((body s).head?).getD 0 := by
      intro s
      induction s with
      | nil => intro i c; rfl
      | cons a s ih =>
        intro i c
        rw [List.cons_append, Format.firstSymbol, blank_iff]
        unfold body at ih ⊢
        cases hb : blank a with
        | true => rw [List.dropWhile_cons_of_pos hb]; simpa using ih (i + 1) a
        | false => rw [List.dropWhile_cons_of_neg (by simp [hb])]; rfl
    rw [key]
    cases hb : (body s).head? with
    | none => simp
    | some c => simp

/-- **C98a.** The text of the list. If its second character that matters is a brace (see the findings), and it lists these entries, the
test succeeds exactly if every table required is there. -/
theorem list_tested_partial (tables : List (List Nat)) (ht : ∀ t ∈ tables, Ascii t) (sf : Bytes) (rt : Tree.Node) (es : List Item)
    (h2 : (body (sf.drop 1)).head? = some 0x7B) (hp : Tree.parseText (shown sf) = .ok rt) (hl : Lists rt es)
    (ha : ∀ e ∈ es, Ascii e.guid ∧ Ascii e.name ∧ Ascii e.num) :
    ((∀ e ∈ es, e.Required → e.Present tables) → testNames (tables.map utf8Text) sf = .ok true) ∧
    (¬ (∀ e ∈ es, e.Required → e.Present tables) → testNames (tables.map utf8Text) sf = .throw) := by
  obtain ⟨a, b, first, nodes, k0, k1, hk, hne, hen⟩ := hl
  unfold testNames
  rw [if_pos ((firstSymbol_brace sf).2 h2)]
  rw [show Vendor.chars sf = shown sf from rfl, hp, Outcome.ok_bind]
  have hit : items rt = .ok nodes := by
    unfold items Vendor.nth
    rw [k0]
    simp only [Outcome.ok_bind]
    rw [k1]
    simp only [Outcome.ok_bind]
    rw [hk]
    cases nodes with
    | nil => exact absurd rfl hne
    | cons n ns => rfl
  rw [hit, Outcome.ok_bind]
  obtain ⟨i1, i2⟩ := testItems_spec tables ht hen ha
  constructor
  · intro h; rw [i1 h]; rfl
  · intro h; rw [i2 h]; rfl

/-! ## The record -/

theorem findNames_spec (pre post : List Rec) (q : Rec) (n : List Nat)
    (hpre : ∀ r ∈ pre, r.removed = true ∨ ∃ m, Name m ∧ r.name = utf8Text m ∧ ¬ SameText m (word "DBNames")) (hq : q.removed = false)
    (hn : Name n) (hqn : q.name = utf8Text n) (hs : SameText n (word "DBNames")) : findNames (pre ++ q :: post) = .ok (some q) := by
  have hw : Ascii (word "DBNames") := by unfold Ascii; decide
  induction pre with
  | nil =>
    rw [List.nil_append, findNames, if_neg (by simp [hq]), hqn, asc_word _ hw, (equalIC_iff n _ hn (ascii_name hw)).1.2 hs]
    rfl
  | cons r pre ih =>
    have ih := ih (fun r hr => hpre r (by simp [hr]))
    rw [List.cons_append, findNames]
    rcases hpre r (by simp) with h | ⟨m, hm, hrm, hno⟩
    · rw [if_pos h, ih]
    · split
      · exact ih
      · rw [hrm, asc_word _ hw, (equalIC_iff m _ hm (ascii_name hw)).2.2 hno]
        exact ih

theorem findNames_none (rs : List Rec) (h : ∀ r ∈ rs, r.removed = true ∨ ∃ m, Name m ∧ r.name = utf8Text m ∧ ¬ SameText m (word "DBNames")) :
    findNames rs = .ok none := by
  have hw : Ascii (word "DBNames") := by unfold Ascii; decide
  induction rs with
  | nil => rfl
  | cons r rs ih =>
    have ih := ih (fun r hr => h r (by simp [hr]))
    rw [findNames]
    rcases h r (by simp) with h | ⟨m, hm, hrm, hno⟩
    · rw [if_pos h, ih]
    · split
      · exact ih
      · rw [hrm, asc_word _ hw, (equalIC_iff m _ hm (ascii_name hw)).2.2 hno]
        exact ih

theorem decode_holds {x : Bytes} {t : List Nat} (ht : ∀ c ∈ t, Scalar c) (hne : t ≠ []) (h : Holds x (utf8Text t)) : decode x = .ok (utf8Text t) := by
  have hlen := holds_length h (by
    intro e
    exact hne (utf8Text_inj t [] ht (by simp) e))
  have hconv : Unicode.fromUtf8 (utf8Text t) = .ok (utf16Text t) := utf8_to_utf16 t ht
  unfold decode
  generalize hu : utf8Text t = u at h hconv
  cases h with
  | utf8 u =>
    have e1 : (mark8 ++ u).drop 3 = u := rfl
    rw [if_pos (by simp [mark8]), if_pos (by omega), e1, hconv]
    rfl
  | utf16 cps hs =>
    have h3 : (mark16 ++ utf16Text cps).take 3 ≠ [0xEF, 0xBB, 0xBF] := by
      unfold mark16
      intro e
      have := congrArg List.head? e
      simp at this
    rw [if_neg h3, if_pos (by simp [mark16]), if_pos (by omega)]
    have := Unicode.utf16_to_utf8 cps hs mark16
    rw [show mark16.length = 2 from rfl] at this
    rw [this, Outcome.ok_bind, hconv]
    rfl

theorem checkNames_drop : ∀ (k : Nat) (fs : List Bytes) (ws : List String), checkNames fs ws = .ok () → checkNames (fs.drop k) (ws.drop k) = .ok ()
  | 0, _, _, h => h
  | k + 1, fs, [], _ => by simp [checkNames]
  | k + 1, [], w :: ws, h => by simp [checkNames] at h
  | k + 1, f :: fs, w :: ws, h => by
    rw [checkNames] at h
    obtain ⟨b, _, h⟩ := bind_inv h
    cases b with
    | true =>
      rw [if_pos rfl] at h
      rw [List.drop_succ_cons, List.drop_succ_cons]
      exact checkNames_drop k fs ws h
    | false => cases h

theorem checkParams_good (i0 : Int) (t : Tab) (h : Fields FileFields t) : checkParams i0 (some t) = .ok t := by
  obtain ⟨ns, hn, hf, ht⟩ := h
  have hlen : t.fields.length = ns.length := by rw [ht, List.length_map]
  have h6 : fileFields.length = 6 := rfl
  unfold checkParams
  simp only
  rcases hf with hf | hf
  · have hl := sameNames_length _ _ hf
    rw [if_neg (by omega), if_neg (by omega), if_neg (by omega)]
    obtain ⟨a1, _⟩ := checkNames_spec ns fileFields hn file_ascii (by omega)
    have := a1 (by rw [List.take_of_length_le (by omega)]; exact hf)
    rw [← ht] at this
    unfold checkFrom
    split
    · rfl
    · have e := checkNames_drop i0.toNat _ _ this
      rw [List.append_nil]
      unfold fileFields at e
      rw [e]
      rfl
  · have hl := sameNames_length _ _ hf
    rw [List.length_append] at hl
    simp only [List.length_cons, List.length_nil] at hl
    rw [if_neg (by omega), if_neg (by omega), if_pos (by omega)]
    obtain ⟨a1, _⟩ := checkNames_spec ns (fileFields ++ ["PARTNO"]) hn (by unfold fileFields; decide) (by
      rw [List.length_append]; simp only [List.length_cons, List.length_nil]; omega)
    have := a1 (by rw [List.take_of_length_le (by rw [List.length_append]; simp only [List.length_cons, List.length_nil]; omega)]; exact hf)
    rw [← ht] at this
    unfold checkFrom
    split
    · rfl
    · have e := checkNames_drop i0.toNat _ _ this
      unfold fileFields at e
      rw [e]
      rfl

/-- **C98b.** The infobase: whatever value the variable without one happens to have, if `PARAMS` has the right fields, and its first record
named `DBNames` (upper and lower case are the same) that is not removed has the right size and holds, compressed except in the oldest
versions, a text that lists these entries, the test succeeds exactly if every table required is there. -/
theorem tables_tested_partial (z : Unzip) (zipped : Bool) (i0 : Int) (p : Tab) (hf : Fields FileFields p) (pre post : List Rec) (q : Rec) (n : List Nat)
    (hrecs : p.recs = pre ++ q :: post)
    (hpre : ∀ r ∈ pre, r.removed = true ∨ ∃ m, Name m ∧ r.name = utf8Text m ∧ ¬ SameText m (word "DBNames")) (hq : q.removed = false)
    (hn : Name n) (hqn : q.name = utf8Text n) (hs : SameText n (word "DBNames"))
    (b x : Bytes) (hb : q.data = .ok b) (hsz : Cli.stoi q.size = .ok (b.length : Int)) (hx : if zipped then z b = .ok x else x = b)
    (t : List Nat) (htx : ∀ c ∈ t, Scalar c) (hne : t ≠ []) (hh : Holds x (utf8Text t))
    (rt : Tree.Node) (es : List Item) (h2 : (body ((utf8Text t).drop 1)).head? = some 0x7B)
    (hp : Tree.parseText (shown (utf8Text t)) = .ok rt) (hl : Lists rt es) (ha : ∀ e ∈ es, Ascii e.guid ∧ Ascii e.name ∧ Ascii e.num)
    (tables : List (List Nat)) (ht : ∀ t ∈ tables, Ascii t) :
    ((∀ e ∈ es, e.Required → e.Present tables) → testTables z zipped i0 (some p) (tables.map utf8Text) = .ok true) ∧
    (¬ (∀ e ∈ es, e.Required → e.Present tables) → testTables z zipped i0 (some p) (tables.map utf8Text) = .throw) := by
  have hread : readNames z zipped q = .ok x := by
    unfold readNames
    rw [hb, Outcome.ok_bind, hsz, Outcome.ok_bind, if_neg (by simp)]
    cases zipped with
    | true => exact hx
    | false => simp only [Bool.false_eq_true, if_false] at hx ⊢; rw [hx]
  have key : testTables z zipped i0 (some p) (tables.map utf8Text) = testNames (tables.map utf8Text) (utf8Text t) := by
    unfold testTables
    rw [checkParams_good i0 p hf, Outcome.ok_bind, hrecs, findNames_spec pre post q n hpre hq hn hqn hs, Outcome.ok_bind]
    simp only
    rw [hread, Outcome.ok_bind, decode_holds htx hne hh, Outcome.ok_bind]
  rw [key]
  exact list_tested_partial tables ht (utf8Text t) rt es h2 hp hl ha

/-- Without such a record, and without the table, an error is reported. -/
theorem no_list_reported (z : Unzip) (zipped : Bool) (i0 : Int) (tables : List Bytes) :
    testTables z zipped i0 none tables = .throw ∧
    ∀ p, Fields FileFields p → (∀ r ∈ p.recs, r.removed = true ∨ ∃ m, Name m ∧ r.name = utf8Text m ∧ ¬ SameText m (word "DBNames")) →
      testTables z zipped i0 (some p) tables = .throw := by
  refine ⟨rfl, fun p hf h => ?_⟩
  unfold testTables
  rw [checkParams_good i0 p hf, Outcome.ok_bind, findNames_none _ h, Outcome.ok_bind]

/-- If the size of the record is not what it says, its value cannot be read or decompressed, or it has no mark of its encoding, an error is
reported. -/
theorem unreadable_list_reported (z : Unzip) (zipped : Bool) (i0 : Int) (p : Tab) (hf : Fields FileFields p) (pre post : List Rec) (q : Rec) (n : List Nat)
    (hrecs : p.recs = pre ++ q :: post)
    (hpre : ∀ r ∈ pre, r.removed = true ∨ ∃ m, Name m ∧ r.name = utf8Text m ∧ ¬ SameText m (word "DBNames")) (hq : q.removed = false)
    (hn : Name n) (hqn : q.name = utf8Text n) (hs : SameText n (word "DBNames")) (tables : List Bytes)
    (h : q.data = .throw ∨ ∃ b, q.data = .ok b ∧ (Cli.stoi q.size = .throw ∨ (∃ k, Cli.stoi q.size = .ok k ∧ k ≠ (b.length : Int)) ∨
      (Cli.stoi q.size = .ok (b.length : Int) ∧ ((zipped = true ∧ z b = .throw) ∨
        ∃ x, (if zipped then z b = .ok x else x = b) ∧ ¬ mark8 <+: x ∧ ¬ mark16 <+: x)))) :
    testTables z zipped i0 (some p) tables = .throw := by
  unfold testTables
  rw [checkParams_good i0 p hf, Outcome.ok_bind, hrecs, findNames_spec pre post q n hpre hq hn hqn hs, Outcome.ok_bind]
  simp only
  unfold readNames
  rcases h with h | ⟨b, hb, h⟩
  · rw [h]; rfl
  · rw [hb, Outcome.ok_bind]
    rcases h with h | ⟨k, h, hk⟩ | ⟨h, h'⟩
    · rw [h]; rfl
    · rw [h, Outcome.ok_bind, if_pos hk]; rfl
    · rw [h, Outcome.ok_bind, if_neg (by simp)]
      rcases h' with ⟨rfl, hz⟩ | ⟨x, hx, h8, h16⟩
      · rw [if_pos rfl, hz]; rfl
      · have e : (if zipped = true then z b else Outcome.ok b) = .ok x := by
          cases zipped with
          | true => exact hx
          | false => simp only [Bool.false_eq_true, if_false] at hx ⊢; rw [hx]
        rw [e, Outcome.ok_bind]
        have : decode x = .throw := by
          unfold decode
          rw [if_neg, if_neg]
          · intro e; exact h16 ⟨x.drop 2, by unfold mark16; rw [← e, List.take_append_drop]⟩
          · intro e; exact h8 ⟨x.drop 3, by unfold mark8; rw [← e, List.take_append_drop]⟩
        rw [this]; rfl

/-- If the variable without a value happens to be 0, as was meant, wrong fields are reported. -/
theorem wrong_fields_reported (z : Unzip) (zipped : Bool) (p : Tab) (ns : List (List Nat)) (hn : ∀ m ∈ ns, Name m) (ht : p.fields = ns.map utf8Text)
    (h : ¬ FileFields ns) (tables : List Bytes) : testTables z zipped 0 (some p) tables = .throw := by
  have hc : checkParams 0 (some p) = .throw := by
    have hlen : p.fields.length = ns.length := by rw [ht, List.length_map]
    unfold checkParams
    simp only
    split
    · rfl
    · split
      · rfl
      · unfold checkFrom
        rw [if_neg (by split <;> simp)]
        simp only [Int.toNat_zero, List.drop_zero]
        by_cases h7 : p.fields.length > 6
        · rw [if_pos h7]
          obtain ⟨_, a2⟩ := checkNames_spec ns (fileFields ++ ["PARTNO"]) hn (by unfold fileFields; decide) (by
            have : (fileFields ++ ["PARTNO"]).length = 7 := rfl
            omega)
          have e := a2 (by
            rw [List.take_of_length_le (by
              have : (fileFields ++ ["PARTNO"]).length = 7 := rfl
              omega)]
            exact fun h' => h (Or.inr h'))
          rw [← ht] at e
          unfold fileFields at e
          rw [e]; rfl
        · rw [if_neg h7, List.append_nil]
          obtain ⟨_, a2⟩ := checkNames_spec ns fileFields hn file_ascii (by
            have : fileFields.length = 6 := rfl
            omega)
          have e := a2 (by
            rw [List.take_of_length_le (by
              have : fileFields.length = 6 := rfl
              omega)]
            exact fun h' => h (Or.inl h'))
          rw [← ht] at e
          unfold fileFields at e
          rw [e]; rfl
  unfold testTables
  rw [hc]; rfl

/-! ## Findings -/

/-- **C98, finding.** A text that begins, as those written by the platform do, with a brace and something else than a brace behind it, is reported,
whatever the tables: the search for the first character begins at the second. -/
theorem usual_list_reported (tables : List Bytes) (sf : Bytes) (h : (body (sf.drop 1)).head? ≠ some 0x7B) : testNames tables sf = .throw := by
  unfold testNames
  rw [if_neg (fun e => h ((firstSymbol_brace sf).1 e))]

/-- **C98, finding.** If the variable that was given no value happens to be negative or at least 7, the names of the fields are not looked at. -/
theorem fields_not_tested (z : Unzip) (zipped : Bool) (i0 : Int) (h : i0 < 0 ∨ 7 ≤ i0) (p : Tab) (fs : List Bytes)
    (hl : fs.length = p.fields.length) (tables : List Bytes) :
    testTables z zipped i0 (some { p with fields := fs }) tables = testTables z zipped i0 (some p) tables := by
  unfold testTables checkParams
  simp only
  rw [hl]
  split
  · rfl
  · split
    · rfl
    · have hc : ∀ (l : List Bytes) (w : List String), w.length ≤ 7 → checkFrom i0 l w = .ok () := by
        intro l w hw
        unfold checkFrom
        rw [if_pos]
        omega
      rw [hc fs _ (by split <;> simp), hc p.fields _ (by split <;> simp)]
      rfl

/-- **C98, finding.** An entry with fewer than two elements makes the test undefined. -/
theorem short_entry_undefined (tables : List Bytes) (t : Tree.Node) (ts : List Tree.Node) (h : t.kids.length < 2) :
    testItems tables (t :: ts) = .ub := by
  unfold testItems testItem subvalue
  rw [List.getElem?_eq_none (by omega)]
  rfl

end Verif.TableList
