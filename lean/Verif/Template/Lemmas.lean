import Verif.Template.Model
import Verif.Template.Spec
import Verif.Record.LayoutTheorems

/-! # Lemmas about templates -/

namespace Verif.Template
open Verif Record

set_option maxRecDepth 4000

theorem paint_ok {t : Tmpl} {pos n : Nat} {f : Nat → Bool} (h : pos + n ≤ t.size) :
    paint t pos n f = .ok ⟨t.size, fun i => if pos ≤ i ∧ i < pos + n then f (i - pos) else t.at' i⟩ := by
  rw [paint, if_pos h]

/-- What a painter does: from `p` on, rows `0 … n - 1` become `g`. -/
structure Did (t t' : Tmpl) (p n : Nat) (g : Nat → Nat → Bool) : Prop where
  size : t'.size = t.size
  out : ∀ x, (x < p ∨ p + n * 256 ≤ x) → t'.at' x = t.at' x
  inside : ∀ k b, k < n → b < 256 → t'.at' (p + k * 256 + b) = g k b

/-- The rows from `p` on are empty. -/
def Clear (t : Tmpl) (p n : Nat) : Prop := ∀ x, p ≤ x → x < p + n * 256 → t.at' x = false

theorem did_append {t t' t'' : Tmpl} {p m n q s : Nat} {g h : Nat → Nat → Bool} (h1 : Did t t' p m g)
    (h2 : Did t' t'' q n h) (hq : q = p + m * 256 := by omega) (hs : s = m + n := by omega) : Did t t'' p s (fun k b => if k < m then g k b else h (k - m) b) := by
  refine ⟨h2.size.trans h1.size, ?_, ?_⟩
  · intro x hx
    rw [h2.out x (by omega), h1.out x (by omega)]
  · intro k b hk hb
    by_cases hm : k < m
    · simp only [hm, if_true]
      rw [h2.out _ (by left; omega), h1.inside k b hm hb]
    · simp only [hm, if_false]
      have := h2.inside (k - m) b (by omega) hb
      have e : q + (k - m) * 256 + b = p + k * 256 + b := by omega
      rw [e] at this; exact this

/-- One whole row. -/
theorem paint_row {t : Tmpl} {p : Nat} {f : Nat → Bool} (h : p + 256 ≤ t.size) :
    ∃ t', paint t p 256 f = .ok t' ∧ Did t t' p 1 (fun _ b => f b) := by
  refine ⟨_, paint_ok h, rfl, ?_, ?_⟩
  · intro x hx
    show (if _ then _ else _) = _
    rw [if_neg (by omega)]
  · intro k b hk hb
    show (if _ then _ else _) = _
    rw [if_pos (by omega)]
    congr 1; omega

/-- Some ones at the beginning of an empty row. -/
theorem paint_some {t : Tmpl} {p n : Nat} (h : p + 256 ≤ t.size) (hn : n ≤ 256) (hc : Clear t p 1) :
    ∃ t', paint t p n ones = .ok t' ∧ Did t t' p 1 (fun _ b => decide (b < n)) := by
  refine ⟨_, paint_ok (by omega), rfl, ?_, ?_⟩
  · intro x hx
    show (if _ then _ else _) = _
    rw [if_neg (by omega)]
  · intro k b hk hb
    show (if _ then _ else _) = _
    by_cases hbn : b < n
    · rw [if_pos (by omega)]; simp [ones, hbn]
    · rw [if_neg (by omega), hc _ (by omega) (by omega)]; simp [hbn]

/-- Many rows of ones. -/
theorem paint_ones {t : Tmpl} {p n : Nat} (h : p + 256 * n ≤ t.size) :
    ∃ t', paint t p (256 * n) ones = .ok t' ∧ Did t t' p n (fun _ _ => true) := by
  refine ⟨_, paint_ok (by omega), rfl, ?_, ?_⟩
  · intro x hx
    show (if _ then _ else _) = _
    rw [if_neg (by omega)]
  · intro k b hk hb
    show (if _ then _ else _) = _
    rw [if_pos (by omega)]; rfl

theorem numRows_ok (n : Nat) : ∀ (t : Tmpl) (p : Nat), p + 256 * n ≤ t.size →
    ∃ t', numRows t p n = .ok t' ∧ Did t t' p n (fun _ b => numTable b) := by
  induction n with
  | zero => intro t p _; exact ⟨t, rfl, rfl, fun _ _ => rfl, fun k b hk => by omega⟩
  | succ n ih =>
    intro t p h
    obtain ⟨t1, e1, d1⟩ := paint_row (f := numTable) (t := t) (p := p) (by omega)
    obtain ⟨t2, e2, d2⟩ := ih t1 (p + 256) (by rw [d1.size]; omega)
    refine ⟨t2, by rw [numRows, e1]; exact e2, ?_⟩
    have := did_append (s := n + 1) d1 d2
    simpa using this

theorem clear_did {t t' : Tmpl} {p n q m : Nat} {g : Nat → Nat → Bool} (h : Clear t q m) (d : Did t t' p n g)
    (hd : p + n * 256 ≤ q ∨ q + m * 256 ≤ p) : Clear t' q m := by
  intro x h1 h2
  rw [d.out x (by omega)]
  exact h x h1 h2

theorem counted_ok {t : Tmpl} {p l n m : Nat} (hm : m = n + 2) (h : p + 256 * m ≤ t.size) (hn : l ≤ n)
    (hc : Clear t p m) :
    ∃ t', counted t p l n = .ok t' ∧ Did t t' p m
      (fun k b => if k = 0 then decide (b ≤ l) else if k = 1 then decide (b ≤ l / 256) else true) := by
  have hc1 : Clear t p 1 := by
    intro x h1 h2
    have : x < p + m * 256 := by omega
    exact hc x h1 this
  have hs : p + 256 ≤ t.size := by omega
  have hw : (if l > 255 then 256 else l + 1) ≤ 256 := by split <;> omega
  obtain ⟨t1, e1, d1⟩ := paint_some (n := if l > 255 then 256 else l + 1) hs hw hc1
  have h2 : p + 256 + (l / 256 + 1) ≤ t1.size := by rw [d1.size]; omega
  have e2 := paint_ok (t := t1) (pos := p + 256) (n := l / 256 + 1) (f := ones) h2
  obtain ⟨t3, e3, d3⟩ := paint_ones (n := n) (p := p + 512)
    (t := ⟨t1.size, fun i => if p + 256 ≤ i ∧ i < p + 256 + (l / 256 + 1) then ones (i - (p + 256)) else t1.at' i⟩)
    (by show _ ≤ t1.size; rw [d1.size]; omega)
  refine ⟨t3, ?_, ?_⟩
  · rw [counted, e1]; simp only [Outcome.ok_bind, e2]; exact e3
  · refine ⟨d3.size.trans d1.size, ?_, ?_⟩
    · intro x hx
      rw [d3.out x (by omega)]
      show (if _ then _ else _) = _
      rw [if_neg (by omega), d1.out x (by omega)]
    · intro k b hk hb
      by_cases h0 : k = 0
      · subst h0
        rw [d3.out _ (by omega)]
        show (if _ then _ else _) = _
        rw [if_neg (by omega), d1.inside 0 b (by omega) hb]
        simp only [if_true]
        apply decide_eq_decide.mpr
        split <;> omega
      · rw [if_neg h0]
        by_cases h1 : k = 1
        · subst h1
          rw [d3.out _ (by omega), if_pos rfl]
          show (if _ then _ else _) = _
          by_cases hb2 : b ≤ l / 256
          · rw [if_pos (by omega)]; simp [ones, hb2]
          · rw [if_neg (by omega), d1.out _ (by omega), hc _ (by omega) (by omega)]; simp [hb2]
        · rw [if_neg h1]
          have := d3.inside (k - 2) b (by omega) hb
          have e : p + 512 + (k - 2) * 256 + b = p + k * 256 + b := by omega
          rw [e] at this; exact this

/-- The rows of a date. -/
def dateRow (required : Bool) (k b : Nat) : Bool :=
  if k < 1 then date1Table b else if k < 2 then numTable b else if k < 3 then without0 required date3Table b
  else if k < 4 then without0 required date4Table b else if k < 5 then date5Table b else date67Table b

theorem dateRows_ok {t : Tmpl} {p : Nat} (required : Bool) (h : p + 256 * 7 ≤ t.size) :
    ∃ t', dateRows t p required = .ok t' ∧ Did t t' p 7 (dateRow required) := by
  obtain ⟨t1, e1, d1⟩ := paint_row (f := date1Table) (t := t) (p := p) (by omega)
  obtain ⟨t2, e2, d2⟩ := paint_row (f := numTable) (t := t1) (p := p + 256) (by rw [d1.size]; omega)
  have D2 := did_append (s := 2) d1 d2
  obtain ⟨t3, e3, d3⟩ := paint_row (f := without0 required date3Table) (t := t2) (p := p + 512) (by rw [D2.size]; omega)
  have D3 := did_append (s := 3) D2 d3
  obtain ⟨t4, e4, d4⟩ := paint_row (f := without0 required date4Table) (t := t3) (p := p + 768) (by rw [D3.size]; omega)
  have D4 := did_append (s := 4) D3 d4
  obtain ⟨t5, e5, d5⟩ := paint_row (f := date5Table) (t := t4) (p := p + 1024) (by rw [D4.size]; omega)
  have D5 := did_append (s := 5) D4 d5
  obtain ⟨t6, e6, d6⟩ := paint_row (f := date67Table) (t := t5) (p := p + 1280) (by rw [D5.size]; omega)
  have D6 := did_append (s := 6) D5 d6
  obtain ⟨t7, e7, d7⟩ := paint_row (f := date67Table) (t := t6) (p := p + 1536) (by rw [D6.size]; omega)
  have D7 := did_append (s := 7) D6 d7
  refine ⟨t7, ?_, D7.size, D7.out, ?_⟩
  · simp only [dateRows, e1, e2, e3, e4, e5, e6, e7, Outcome.ok_bind]
  · intro k b hk hb
    rw [D7.inside k b hk hb]
    unfold dateRow
    (repeat' split) <;> first | rfl | omega

/-! ## Tables of digits -/

theorem table_digits (ps : List Nat) (hi : Nat)
    (ht : ∀ r c, c < 16 → (c < ps.getD r 0 ↔ c ≤ 9 ∧ r * 10 + c ≤ hi)) (b : UInt8) :
    table ps b.toNat = true ↔ Spec.Digits 0 hi b := by
  unfold table Spec.Digits
  rw [decide_eq_true_iff, ht _ _ (by omega)]
  constructor
  · rintro ⟨h1, h2⟩
    exact ⟨b.toNat / 16 * 10 + b.toNat % 16, by omega, h2, by omega⟩
  · rintro ⟨n, _, h2, h3⟩
    omega

theorem getD_replicate10 (n : Nat) (l : List Nat) (r : Nat) :
    (List.replicate n 10 ++ l).getD r 0 = if r < n then 10 else l.getD (r - n) 0 := by
  by_cases h : r < n
  · rw [if_pos h, List.getD_eq_getElem?_getD, List.getElem?_append_left (by simpa using h)]
    simp [h]
  · rw [if_neg h, List.getD_eq_getElem?_getD, List.getElem?_append_right (by simpa using Nat.le_of_not_lt h)]
    simp [List.getD_eq_getElem?_getD]

theorem tab_rows (n m hi : Nat) (hm : m ≤ 10) (hhi : hi + 1 = n * 10 + m) (r c : Nat) :
    c < (List.replicate n 10 ++ [m]).getD r 0 ↔ c ≤ 9 ∧ r * 10 + c ≤ hi := by
  rw [getD_replicate10]
  split
  · omega
  · rename_i h
    by_cases hr : r = n
    · subst hr; simp; omega
    · have : [m].getD (r - n) 0 = 0 := by
        rw [List.getD_eq_getElem?_getD, List.getElem?_eq_none (by simp; omega)]; rfl
      rw [this]; omega

theorem numTable_iff (b : UInt8) : numTable b.toNat = true ↔ Spec.Digits 0 99 b :=
  table_digits _ 99 (fun r c _ => tab_rows 9 10 99 (by omega) (by omega) r c) b
theorem date1_iff (b : UInt8) : date1Table b.toNat = true ↔ Spec.Digits 0 39 b :=
  table_digits _ 39 (fun r c _ => tab_rows 3 10 39 (by omega) (by omega) r c) b
theorem date3_iff (b : UInt8) : date3Table b.toNat = true ↔ Spec.Digits 0 12 b :=
  table_digits _ 12 (fun r c _ => tab_rows 1 3 12 (by omega) (by omega) r c) b
theorem date4_iff (b : UInt8) : date4Table b.toNat = true ↔ Spec.Digits 0 31 b :=
  table_digits _ 31 (fun r c _ => tab_rows 3 2 31 (by omega) (by omega) r c) b
theorem date5_iff (b : UInt8) : date5Table b.toNat = true ↔ Spec.Digits 0 23 b :=
  table_digits _ 23 (fun r c _ => tab_rows 2 4 23 (by omega) (by omega) r c) b
theorem date67_iff (b : UInt8) : date67Table b.toNat = true ↔ Spec.Digits 0 59 b :=
  table_digits _ 59 (fun r c _ => tab_rows 5 10 59 (by omega) (by omega) r c) b

theorem nameDateTime_eq : nameDateTime = Unicode.Spec.utf8Text ("_DATE_TIME".toList.map Char.toNat) := by decide
theorem nameNumberPrefix_eq : nameNumberPrefix = Unicode.Spec.utf8Text ("_NUMBERPREFIX".toList.map Char.toNat) := by decide

theorem required_names (n : List Nat) (h : n ∈ Spec.requiredNames) : Unicode.Spec.Name n := by
  simp only [Spec.requiredNames, List.mem_cons, List.not_mem_nil, or_false] at h
  rcases h with rfl | rfl <;> (intro c hc; revert c; decide)

open Unicode in
theorem isRequired_ok (f : Field) (h : Spec.Named f) :
    ∃ r, isRequired f.name = .ok r ∧ (r = true ↔ Spec.Required f) := by
  obtain ⟨cps, hn, e⟩ := h
  have h1 := equalIC_iff cps _ hn (required_names _ (by simp [Spec.requiredNames] : "_DATE_TIME".toList.map Char.toNat ∈ _))
  have h2 := equalIC_iff cps _ hn (required_names _ (by simp [Spec.requiredNames] : "_NUMBERPREFIX".toList.map Char.toNat ∈ _))
  have key : ∀ cps', Unicode.Spec.Name cps' → f.name = Unicode.Spec.utf8Text cps' → cps' = cps := by
    intro cps' hn' e'
    exact utf8Text_inj _ _ (fun c hc => (hn' c hc).1) (fun c hc => (hn c hc).1) (e'.symm.trans e)
  unfold isRequired
  rw [e, nameDateTime_eq, nameNumberPrefix_eq]
  by_cases a : Unicode.Spec.SameText cps ("_DATE_TIME".toList.map Char.toNat)
  · refine ⟨true, by rw [h1.1.mpr a]; rfl, fun _ => ?_, fun _ => rfl⟩
    exact ⟨cps, _, hn, e, by simp [Spec.requiredNames], a⟩
  · rw [h1.2.mpr a]
    simp only [Outcome.ok_bind, Bool.false_eq_true, if_false]
    by_cases b : Unicode.Spec.SameText cps ("_NUMBERPREFIX".toList.map Char.toNat)
    · refine ⟨true, h2.1.mpr b, fun _ => ?_, fun _ => rfl⟩
      exact ⟨cps, _, hn, e, by simp [Spec.requiredNames], b⟩
    · refine ⟨false, h2.2.mpr b, by simp, ?_⟩
      rintro ⟨cps', n, hn', e', hm, hs⟩
      rw [key cps' hn' e'] at hs
      simp only [Spec.requiredNames, List.mem_cons, List.not_mem_nil, or_false] at hm
      rcases hm with rfl | rfl
      · exact absurd hs a
      · exact absurd hs b

/-! ## Fields and records -/

theorem digits_zero (b : UInt8) : (b.toNat == 0) = true ↔ b = 0 := by
  rw [beq_iff_eq, ← UInt8.toNat_inj]; rfl

theorem without0_iff {r : Bool} {f : Nat → Bool} {P R : Prop} {b : UInt8} (h : f b.toNat = true ↔ P) (hr : r = true ↔ R) :
    without0 r f b.toNat = true ↔ P ∧ (R → b ≠ 0) := by
  have hb : (b.toNat == 0) = true ↔ b = 0 := digits_zero b
  unfold without0
  rw [Bool.and_eq_true, h, Bool.not_eq_true', ← Bool.not_eq_true, Bool.and_eq_true, hr, hb]
  constructor
  · rintro ⟨h1, h2⟩; exact ⟨h1, fun h3 h4 => h2 ⟨h3, h4⟩⟩
  · rintro ⟨h1, h2⟩; exact ⟨h1, fun h3 => h2 h3.1 h3.2⟩

theorem dateRow_iff (f : Field) (ht : f.decl.type = .datetime) (r : Bool) (hr : r = true ↔ Spec.Required f) (k : Nat)
    (b : UInt8) : dateRow r k b.toNat = true ↔ Spec.ByteOk f k b := by
  unfold Spec.ByteOk dateRow
  rw [ht]
  dsimp only
  split
  · have : k = 0 := by omega
    subst this
    rw [date1_iff]; simp
  · split
    · have : k = 1 := by omega
      subst this
      rw [numTable_iff]; simp
    · split
      · have : k = 2 := by omega
        subst this
        rw [without0_iff (date3_iff b) hr]; simp
      · split
        · have : k = 3 := by omega
          subst this
          rw [without0_iff (date4_iff b) hr]; simp
        · split
          · have : k = 4 := by omega
            subst this
            rw [date5_iff]; simp
          · have h5 : 5 ≤ k := by omega
            rw [date67_iff]
            exact ⟨fun h => ⟨by omega, by omega, by omega, by omega, by omega, fun _ => h⟩, fun h => h.2.2.2.2.2 h5⟩

theorem counted_iff (k l : Nat) (b : UInt8) :
    (if k = 0 then decide (b.toNat ≤ l) else if k = 1 then decide (b.toNat ≤ l / 256) else true) = true ↔
      (k = 0 → b.toNat ≤ l) ∧ (k = 1 → b.toNat ≤ l / 256) := by
  by_cases h0 : k = 0
  · subst h0; simp
  · by_cases h1 : k = 1
    · subst h1; simp
    · simp [h0, h1]

theorem typeRows_ok (f : Field) (hs : Record.Spec.Sane f.decl) (hn : Spec.Named f) (t : Tmpl) (p m : Nat)
    (hm : m = Record.Spec.valueBytes f.decl) (h : p + 256 * m ≤ t.size) (hc : Clear t p m) :
    ∃ t' g, typeRows t p f = .ok t' ∧ Did t t' p m g ∧ ∀ k (b : UInt8), k < m → (g k b.toNat = true ↔ Spec.ByteOk f k b) := by
  unfold typeRows
  rw [if_neg (by have := hs.1; omega)]
  dsimp only
  unfold Record.Spec.valueBytes at hm
  dsimp only at hm
  obtain ⟨l, hl⟩ : ∃ l, l = f.decl.length.toNat := ⟨_, rfl⟩
  rw [← hl] at hm ⊢
  cases ht : f.decl.type <;> rw [ht] at hm <;> dsimp only at hm ⊢
  case binary =>
    subst hm
    obtain ⟨t', e, d⟩ := paint_ones h
    exact ⟨t', _, e, d, fun k b _ => by simp [Spec.ByteOk, ht]⟩
  case bool =>
    subst hm
    obtain ⟨t', e, d⟩ := paint_some (n := 2) (by omega) (by omega) hc
    exact ⟨t', _, e, d, fun k b _ => by simp [Spec.ByteOk, ht]; omega⟩
  case numeric =>
    subst hm
    obtain ⟨t', e, d⟩ := numRows_ok _ t p h
    exact ⟨t', _, e, d, fun k b _ => by simp [Spec.ByteOk, ht, numTable_iff]⟩
  case char =>
    subst hm
    obtain ⟨t', e, d⟩ := paint_ones h
    refine ⟨t', _, ?_, d, fun k b _ => by simp [Spec.ByteOk, ht]⟩
    rw [Nat.mul_assoc]; exact e
  case varchar =>
    obtain ⟨t', e, d⟩ := counted_ok (l := l) hm h (by omega) hc
    refine ⟨t', _, e, d, fun k b _ => ?_⟩
    rw [counted_iff]; simp only [Spec.ByteOk, ht, ← hl]
  case varbinary =>
    obtain ⟨t', e, d⟩ := counted_ok (l := l) hm h (by omega) hc
    refine ⟨t', _, e, d, fun k b _ => ?_⟩
    rw [counted_iff]; simp only [Spec.ByteOk, ht, ← hl]
  case datetime =>
    subst hm
    obtain ⟨r, e1, hr⟩ := isRequired_ok f hn
    obtain ⟨t', e, d⟩ := dateRows_ok (t := t) (p := p) r h
    refine ⟨t', _, ?_, d, fun k b _ => dateRow_iff f ht r hr k b⟩
    rw [e1]; exact e
  all_goals
    subst hm
    obtain ⟨t', e, d⟩ := paint_ones h
    exact ⟨t', _, e, d, fun k b _ => by simp [Spec.ByteOk, ht]⟩

theorem fieldRows_ok (f : Field) (hs : Record.Spec.Sane f.decl) (hn : Spec.Named f) (t : Tmpl) (o m : Nat) (ho : f.offset = (o : Int))
    (hm : m = Record.Spec.fieldBytes f.decl) (h : o * 256 + 256 * m ≤ t.size) (hc : Clear t (o * 256) m) :
    ∃ t' g, fieldRows t f = .ok t' ∧ Did t t' (o * 256) m g ∧
      ∀ k (b : UInt8), k < m → (g k b.toNat = true ↔ Spec.FieldByteOk f k b) := by
  unfold fieldRows
  rw [if_neg (by omega)]
  dsimp only
  rw [ho, Int.toNat_natCast]
  unfold Record.Spec.fieldBytes at hm
  unfold Spec.FieldByteOk
  cases hnull : f.decl.nullExists with
  | false =>
    simp only [hnull, Bool.false_eq_true, if_false, Nat.zero_add] at hm ⊢
    exact typeRows_ok f hs hn t _ m hm h hc
  | true =>
    simp only [hnull, if_true] at hm ⊢
    obtain ⟨t1, e1, d1⟩ := paint_some (t := t) (p := o * 256) (n := 2) (by omega) (by omega)
      (fun x h1 h2 => hc x h1 (by omega))
    have hc2 : Clear t1 (o * 256 + 256) (Record.Spec.valueBytes f.decl) := by
      intro x h1 h2
      rw [d1.out x (by omega)]
      exact hc x (by omega) (by omega)
    obtain ⟨t2, g, e2, d2, hg⟩ := typeRows_ok f hs hn t1 (o * 256 + 256) _ rfl (by rw [d1.size]; omega) hc2
    refine ⟨t2, _, ?_, did_append (s := m) d1 d2, ?_⟩
    · rw [e1]; exact e2
    · intro k b hk
      by_cases h0 : k = 0
      · subst h0; simp; omega
      · have : ¬ k < 1 := by omega
        simp only [this, if_false, h0]
        exact hg (k - 1) b (by omega)

/-- Byte `k` of the record belongs to the field. -/
def Has (f : Field) (k : Nat) : Prop := f.offset ≤ k ∧ (k : Int) < f.offset + Record.Spec.fieldBytes f.decl

theorem allRows_ok (rlen : Nat) (fs : List Field) : ∀ (t : Tmpl), (∀ f ∈ fs, Record.Spec.Sane f.decl ∧ Spec.Named f) →
    (∀ f ∈ fs, 0 ≤ f.offset ∧ f.offset + Record.Spec.fieldBytes f.decl ≤ rlen) → fs.Pairwise Record.Spec.Apart → t.size = rlen * 256 →
    (∀ f ∈ fs, Clear t (f.offset.toNat * 256) (Record.Spec.fieldBytes f.decl)) →
    ∃ t', allRows fs.length fs t = .ok t' ∧ t'.size = t.size ∧
      (∀ k b, b < 256 → (∀ f ∈ fs, ¬ Has f k) → t'.at' (k * 256 + b) = t.at' (k * 256 + b)) ∧
      ∀ f ∈ fs, ∀ k (b : UInt8), Has f k → (t'.at' (k * 256 + b.toNat) = true ↔ Spec.FieldByteOk f (k - f.offset.toNat) b) := by
  induction fs with
  | nil => intro t _ _ _ _ _; exact ⟨t, rfl, rfl, fun _ _ _ _ => rfl, fun f hf => by simp at hf⟩
  | cons f fs ih =>
    intro t hs hb hp hz hc
    obtain ⟨hp1, hp2⟩ := List.pairwise_cons.mp hp
    have hf := hb f (List.mem_cons_self ..)
    obtain ⟨o, ho⟩ : ∃ o : Nat, f.offset = (o : Int) := ⟨f.offset.toNat, by omega⟩
    obtain ⟨m, hm⟩ : ∃ m : Nat, m = Record.Spec.fieldBytes f.decl := ⟨_, rfl⟩
    have hcf := hc f (List.mem_cons_self ..)
    rw [ho, Int.toNat_natCast, ← hm] at hcf
    have hle : o + m ≤ rlen := by rw [ho, ← hm] at hf; omega
    obtain ⟨t1, g, e1, d1, hg⟩ := fieldRows_ok f (hs f (List.mem_cons_self ..)).1 (hs f (List.mem_cons_self ..)).2 t o m ho hm
      (by rw [hz]; omega) hcf
    obtain ⟨t2, e2, hz2, hout, hin⟩ := ih t1 (fun x hx => hs x (List.mem_cons_of_mem _ hx))
      (fun x hx => hb x (List.mem_cons_of_mem _ hx)) hp2 (d1.size.trans hz) (by
        intro x hx
        refine clear_did (hc x (List.mem_cons_of_mem _ hx)) d1 ?_
        have h1 := hp1 x hx
        have h2 := hb x (List.mem_cons_of_mem _ hx)
        unfold Record.Spec.Apart at h1
        rw [ho, ← hm] at h1
        omega)
    refine ⟨t2, ?_, hz2.trans d1.size, ?_, ?_⟩
    · rw [List.length_cons, allRows, e1]; exact e2
    · intro k b hkb hk
      rw [hout k b hkb (fun x hx => hk x (List.mem_cons_of_mem _ hx))]
      refine d1.out _ ?_
      have := hk f (List.mem_cons_self ..)
      unfold Has at this
      rw [ho, ← hm] at this
      omega
    · intro x hx k b hk
      rcases List.mem_cons.mp hx with rfl | hx
      · have hk' := hk
        unfold Has at hk'
        rw [ho, ← hm] at hk'
        rw [hout k b.toNat (by have := b.toNat_lt; omega) ?_]
        · have := d1.inside (k - o) b.toNat (by omega) b.toNat_lt
          have e : o * 256 + (k - o) * 256 + b.toNat = k * 256 + b.toNat := by omega
          rw [e] at this
          rw [this, ho, Int.toNat_natCast]
          exact hg (k - o) b (by omega)
        · intro y hy hky
          have h1 := hp1 y hy
          unfold Record.Spec.Apart at h1
          unfold Has at hky
          rw [ho, ← hm] at h1
          omega
      · exact hin x hx k b hk

/-- Fields as `layout` leaves them, of a record of `rlen` bytes. -/
structure Laid (fs : List Field) (rlen : Nat) : Prop where
  sane : ∀ f ∈ fs, Record.Spec.Sane f.decl ∧ Spec.Named f
  inside : ∀ f ∈ fs, 1 ≤ f.offset ∧ f.offset + Record.Spec.fieldBytes f.decl ≤ rlen
  apart : fs.Pairwise Record.Spec.Apart
  pos : 5 ≤ rlen
  small : rlen < 8388608

theorem template_ok (fs : List Field) (rlen : Nat) (h : Laid fs rlen) :
    ∃ t, template fs.length fs rlen = .ok t ∧ t.size = rlen * 256 ∧
      ∀ k (b : UInt8), k < rlen → (t.at' (k * 256 + b.toNat) = true ↔ Spec.RecordByteOk fs k b) := by
  obtain ⟨t1, e1, hz, hout, hin⟩ := allRows_ok rlen fs ⟨rlen * 256, fun _ => false⟩ h.sane
    (fun f hf => by have := h.inside f hf; omega) h.apart rfl (fun _ _ _ _ _ => rfl)
  have hz' : t1.size = rlen * 256 := hz
  have hpos := h.pos
  refine ⟨⟨t1.size, fun i => if 0 ≤ i ∧ i < 0 + 1 then ones (i - 0) else t1.at' i⟩, ?_, hz', ?_⟩
  · rw [template, if_neg (by have := h.small; omega), e1]
    exact paint_ok (by rw [hz']; omega)
  · intro k b hk
    show (if _ then _ else _) = true ↔ _
    have hb := b.toNat_lt
    by_cases h0 : k * 256 + b.toNat = 0
    · rw [if_pos (by omega)]
      refine ⟨fun _ => Or.inl ⟨by omega, ?_⟩, fun _ => rfl⟩
      rw [← UInt8.toNat_inj]
      have : b.toNat = 0 := by omega
      rw [this]; rfl
    · rw [if_neg (by omega)]
      unfold Spec.RecordByteOk
      by_cases hf : ∃ f ∈ fs, Has f k
      · obtain ⟨f, hf, hk'⟩ := hf
        constructor
        · exact fun h1 => Or.inr ⟨f, hf, hk'.1, hk'.2, (hin f hf k b hk').mp h1⟩
        · rintro (⟨rfl, rfl⟩ | ⟨g, hg, h1, h2, h3⟩)
          · exact absurd rfl h0
          · exact (hin g hg k b ⟨h1, h2⟩).mpr h3
      · have hf' : ∀ f ∈ fs, ¬ Has f k := fun f h1 h2 => hf ⟨f, h1, h2⟩
        rw [hout k b.toNat hb hf']
        constructor
        · intro h1; simp at h1
        · rintro (⟨rfl, rfl⟩ | ⟨g, hg, h1, h2, h3⟩)
          · exact absurd rfl h0
          · exact absurd ⟨h1, h2⟩ (hf' g hg)

end Verif.Template
