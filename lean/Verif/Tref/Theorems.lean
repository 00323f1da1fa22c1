import Verif.Tref.Spec
import Verif.Tref.Model
import Verif.Record.Theorems
import Verif.Cli.Theorems

/-!
# Replacing type numbers: theorems (property C101)

The user's file is read right (`map_read`). But the call replaces nothing: it returns only if there was nothing to replace (`returns_iff`), and
otherwise it never ends or is undefined (`never_ends`, `unknown_number_undefined`).
-/

namespace Verif.Tref
open Verif Verif.Record

/-! ## The file -/

theorem splitNl_line (l rest : Bytes) (h : ∀ c ∈ l, c ≠ 10) : splitNl (l ++ 10 :: rest) = l :: splitNl rest := by
  induction l with
  | nil => simp [splitNl]
  | cons c l ih =>
    rw [List.cons_append, splitNl, if_neg (h c (by simp)), ih (fun x hx => h x (by simp [hx]))]

theorem splitNl_file (ls : List Bytes) (h : ∀ l ∈ ls, ∀ c ∈ l, c ≠ (10 : UInt8)) : splitNl (Spec.file ls) = ls ++ [[]] := by
  induction ls with
  | nil => rfl
  | cons l ls ih =>
    have e : Spec.file (l :: ls) = l ++ 10 :: Spec.file ls := by simp [Spec.file]
    rw [e, splitNl_line _ _ (h l (by simp)), ih (fun x hx => h x (by simp [hx]))]
    rfl

theorem linesOf_file (ls : List Bytes) (h : ∀ l ∈ ls, ∀ c ∈ l, c ≠ (10 : UInt8)) : linesOf (Spec.file ls) = ls := by
  unfold linesOf
  rw [splitNl_file ls h]
  simp

theorem digit_ge (ds : List Nat) (hd : ∀ d ∈ ds, d < 10) (c : UInt8) (hc : c ∈ Cli.Spec.digits ds) : 48 ≤ c.toNat ∧ c.toNat < 58 := by
  unfold Cli.Spec.digits at hc
  obtain ⟨d, h1, rfl⟩ := List.mem_map.1 hc
  have := hd d h1
  rw [UInt8.toNat_ofNat']
  omega

theorem atTab_line (x y : Bytes) (h : ∀ c ∈ x, c ≠ (9 : UInt8)) : atTab (x ++ 9 :: y) = some (x, y) := by
  induction x with
  | nil => simp [atTab]
  | cons c x ih =>
    rw [List.cons_append, atTab, if_neg (h c (by simp)), ih (fun z hz => h z (by simp [hz]))]
    rfl

theorem stoi_number {b : Bytes} {n : Nat} (h : Spec.Number b n) (hn : n < 2 ^ 31) : Cli.stoi b = .ok (n : Int) := by
  obtain ⟨ds, h1, h2, rfl, rfl⟩ := h
  have := Cli.readInt_number false ds h1 h2 [] (by simp)
  simp only [Bool.false_eq_true, if_false, List.nil_append, List.append_nil] at this
  unfold Cli.stoi
  rw [this]
  simp only
  rw [if_pos]
  unfold Cli.fitsInt
  simp only [Bool.and_eq_true, decide_eq_true_eq]
  omega

theorem number_bytes {b : Bytes} {n : Nat} (h : Spec.Number b n) (c : UInt8) (hc : c ∈ b) : c ≠ 9 ∧ c ≠ 10 := by
  obtain ⟨ds, _, h2, rfl, _⟩ := h
  have := digit_ge ds h2 c hc
  constructor <;> (rintro rfl; simp at this)

theorem line_parts {l : Bytes} {e : Spec.Entry} (h : Spec.Line l e) (hn : e.new < 2 ^ 31) (ho : e.old < 2 ^ 31) :
    ∃ x y, atTab l = some (x, y) ∧ Cli.stoi x = .ok (e.new : Int) ∧ Cli.stoi y = .ok (e.old : Int) := by
  obtain ⟨x, y, h1, h2, rfl⟩ := h
  exact ⟨x, y, atTab_line x y (fun c hc => (number_bytes h1 c hc).1), stoi_number h1 hn, stoi_number h2 ho⟩

theorem line_nl {l : Bytes} {e : Spec.Entry} (h : Spec.Line l e) (c : UInt8) (hc : c ∈ l) : c ≠ 10 := by
  obtain ⟨x, y, h1, h2, rfl⟩ := h
  simp only [List.mem_append, List.mem_cons] at hc
  rcases hc with hc | rfl | hc
  · exact (number_bytes h1 c hc).2
  · decide
  · exact (number_bytes h2 c hc).2

theorem highest_ok {ls : List Bytes} {es : List Spec.Entry} (h : List.Forall₂ Spec.Line ls es)
    (hb : ∀ e ∈ es, e.new < 2 ^ 31 ∧ e.old < 2 ^ 31) (m : Nat) :
    highest ls (m : Int) = .ok (((es.map (·.old)).foldl max m : Nat) : Int) := by
  induction h generalizing m with
  | nil => rfl
  | @cons l e ls es h1 _ ih =>
    obtain ⟨x, y, e1, _, e3⟩ := line_parts h1 (hb e (by simp)).1 (hb e (by simp)).2
    rw [highest, e1]
    simp only [e3, Outcome.ok_bind]
    have : (if (m : Int) < (e.old : Int) then (e.old : Int) else (m : Int)) = ((max m e.old : Nat) : Int) := by
      split <;> omega
    rw [this, ih (fun z hz => hb z (by simp [hz]))]
    rfl

/-- What the second loop leaves: the last line that tells the number, or what was there. -/
def told (es : List Spec.Entry) (n : Nat) (d : Int) : Int :=
  ((es.filter (·.old = n)).getLast?.map (fun e => (e.new : Int))).getD d

theorem fill_ok {ls : List Bytes} {es : List Spec.Entry} (h : List.Forall₂ Spec.Line ls es)
    (hb : ∀ e ∈ es, e.new < 2 ^ 31 ∧ e.old < 2 ^ 31) (m : List Int) (hm : ∀ e ∈ es, e.old < m.length) :
    ∃ m', fill ls m = .ok m' ∧ m'.length = m.length ∧ ∀ n, n < m.length → m'[n]? = some (told es n (m[n]?.getD 0)) := by
  induction h generalizing m with
  | nil => exact ⟨m, rfl, rfl, fun n hn => by simp [told, hn]⟩
  | @cons l e ls es h1 _ ih =>
    obtain ⟨x, y, e1, e2, e3⟩ := line_parts h1 (hb e (by simp)).1 (hb e (by simp)).2
    have hlt := hm e (by simp)
    obtain ⟨m', a1, a2, a3⟩ := ih (fun z hz => hb z (by simp [hz])) (m.set e.old (e.new : Int))
      (fun z hz => by rw [List.length_set]; exact hm z (by simp [hz]))
    refine ⟨m', ?_, by rw [a2, List.length_set], fun n hn => ?_⟩
    · rw [fill, e1]
      simp only [e2, e3, Outcome.ok_bind]
      rw [if_pos ⟨by omega, by omega⟩]
      exact a1
    · rw [a3 n (by rw [List.length_set]; exact hn)]
      congr 1
      unfold told
      rw [List.filter_cons]
      by_cases ho : e.old = n
      · subst ho
        rw [List.getElem?_set_self hlt]
        simp only [decide_true, if_true, Option.getD_some]
        cases hg : es.filter (fun z => decide (z.old = e.old)) with
        | nil => simp
        | cons a l => rw [List.getLast?_cons_cons, List.getLast?_eq_some_getLast (List.cons_ne_nil a l)]; rfl
      · rw [List.getElem?_set_ne ho]
        simp [ho]

theorem foldl_max_le (l : List Nat) (m : Nat) : m ≤ l.foldl max m ∧ ∀ x ∈ l, x ≤ l.foldl max m := by
  induction l generalizing m with
  | nil => simp
  | cons a l ih =>
    obtain ⟨h1, h2⟩ := ih (max m a)
    refine ⟨by simp only [List.foldl_cons]; omega, fun x hx => ?_⟩
    simp only [List.foldl_cons]
    rcases List.mem_cons.1 hx with rfl | hx
    · omega
    · exact h2 x hx

/-- **C101, the map.** A file with a line `new, tab, old` for each number is read as the map it stands for: it has a place for each number up to the greatest
old one, where the new number is found, and 0 where no line tells one. -/
theorem map_read {ls : List Bytes} {es : List Spec.Entry} (h : List.Forall₂ Spec.Line ls es)
    (hb : ∀ e ∈ es, e.new < 2 ^ 31 ∧ e.old < 2 ^ 31 - 1) :
    ∃ m, readMap (Spec.file ls) = .ok m ∧ m.length = Spec.greatest es + 1 ∧
      ∀ n, n ≤ Spec.greatest es → m[n]? = some (Spec.newOf es n : Int) := by
  have hb' : ∀ e ∈ es, e.new < 2 ^ 31 ∧ e.old < 2 ^ 31 := fun e he => ⟨(hb e he).1, by have := (hb e he).2; omega⟩
  have hnl : ∀ l ∈ ls, ∀ c ∈ l, c ≠ (10 : UInt8) := by
    clear hb hb'
    induction h with
    | nil => simp
    | cons h1 _ ih =>
      intro l hl
      rcases List.mem_cons.1 hl with rfl | hl
      · exact line_nl h1
      · exact ih l hl
  have hg : Spec.greatest es < 2 ^ 31 - 1 := by
    unfold Spec.greatest
    have : ∀ (l : List Nat) (m : Nat), m < 2 ^ 31 - 1 → (∀ x ∈ l, x < 2 ^ 31 - 1) → l.foldl max m < 2 ^ 31 - 1 := by
      intro l
      induction l with
      | nil => intro m hm _; exact hm
      | cons a l ih =>
        intro m hm hl
        have := hl a (by simp)
        exact ih _ (by omega) (fun x hx => hl x (by simp [hx]))
    apply this _ 0 (by omega)
    intro x hx
    obtain ⟨e, he, rfl⟩ := List.mem_map.1 hx
    exact (hb e he).2
  have hh := highest_ok h hb' 0
  obtain ⟨m, a1, a2, a3⟩ := fill_ok h hb' (List.replicate (Spec.greatest es + 1) 0) (fun e he => by
    rw [List.length_replicate]
    have := (foldl_max_le (es.map (·.old)) 0).2 e.old (List.mem_map.2 ⟨e, he, rfl⟩)
    unfold Spec.greatest
    omega)
  refine ⟨m, ?_, by rw [a2, List.length_replicate], fun n hn => ?_⟩
  · unfold readMap
    rw [linesOf_file ls hnl]
    have hh' : highest ls 0 = .ok ((Spec.greatest es : Nat) : Int) := hh
    rw [hh', Outcome.ok_bind, if_neg (by omega)]
    rw [show ((Spec.greatest es : Int) + 1).toNat = Spec.greatest es + 1 by omega]
    exact a1
  · rw [a3 n (by rw [List.length_replicate]; omega)]
    congr 1
    unfold told Spec.newOf
    rw [List.getElem?_replicate, if_pos (by omega)]
    cases (es.filter (fun z => decide (z.old = n))).getLast? <;> rfl

/-- **C101, negation.** A line with a negative old number writes before the beginning of the map. -/
theorem negative_undefined (x y : Bytes) (hx : ∀ c ∈ x, c ≠ (9 : UInt8) ∧ c ≠ 10) (hy : ∀ c ∈ y, c ≠ (10 : UInt8)) (i j : Int)
    (hi : Cli.stoi x = .ok i) (hj : Cli.stoi y = .ok j) (hn : j < 0) : readMap (x ++ 9 :: y) = .ub := by
  have hl : ∀ (b : Bytes), (∀ c ∈ b, c ≠ (10 : UInt8)) → splitNl b = [b] := by
    intro b
    induction b with
    | nil => intro _; rfl
    | cons c b ih => intro h; rw [splitNl, if_neg (h c (by simp)), ih (fun z hz => h z (by simp [hz]))]
  have hs : linesOf (x ++ 9 :: y) = [x ++ 9 :: y] := by
    unfold linesOf
    rw [hl _ (by
      intro c hc
      simp only [List.mem_append, List.mem_cons] at hc
      rcases hc with hc | rfl | hc
      · exact (hx c hc).2
      · decide
      · exact hy c hc)]
    simp
  have ht := atTab_line x y (fun c hc => (hx c hc).1)
  have e1 : highest [x ++ 9 :: y] 0 = .ok 0 := by
    rw [highest, ht]
    simp only [hj, Outcome.ok_bind]
    rw [if_neg (by omega)]
    rfl
  unfold readMap
  rw [hs, e1, Outcome.ok_bind, if_neg (by omega), fill, ht]
  simp only [hi, hj, Outcome.ok_bind]
  rw [if_neg (by omega)]

/-! ## The tables -/

/-- The program's view of a column. -/
def ofColumn (c : Spec.Column) : Fld := ⟨Unicode.Spec.utf8Text c.name, c.type, c.length, c.slot⟩
/-- The program's view of a table. -/
def ofTable (t : Spec.Table) : Table := ⟨t.tab, t.records, t.columns.map ofColumn⟩

theorem utf8_plain (n : List Nat) (h : Spec.Plain n) : Unicode.Spec.utf8Text n = n.map UInt8.ofNat := by
  induction n with
  | nil => rfl
  | cons c n ih =>
    have e : Unicode.Spec.utf8Text (c :: n) = Unicode.Spec.utf8 c ++ Unicode.Spec.utf8Text n := rfl
    rw [e, ih (fun z hz => h z (by simp [hz])), Unicode.Spec.utf8, if_pos (by have := (h c (by simp)).2; omega)]
    rfl

theorem plain_name {n : List Nat} (h : Spec.Plain n) : Unicode.Spec.Name n := fun c hc => by
  have := h c hc
  exact ⟨Or.inl (by omega), by omega⟩

/-- For a plain name the test of the ending answers. -/
theorem ends_plain (n : List Nat) (h : Spec.Plain n) :
    ∃ b, Unicode.endsWithIC (Unicode.Spec.utf8Text n) [84, 82, 69, 70] = .ok b ∧
      (b = true ↔ ∃ p q, n = p ++ q ∧ Unicode.Spec.SameText q [84, 82, 69, 70]) := by
  have ht : Unicode.Spec.utf8Text [84, 82, 69, 70] = [84, 82, 69, 70] := by decide
  have hT : Spec.Plain [84, 82, 69, 70] := by intro c hc; simp at hc; omega
  have hi := Unicode.endsWithIC_iff n [84, 82, 69, 70] (plain_name h) (plain_name hT) (by simp)
  rw [ht] at hi
  have htot : ∃ b, Unicode.endsWithIC (Unicode.Spec.utf8Text n) [84, 82, 69, 70] = .ok b := by
    unfold Unicode.endsWithIC
    rw [if_neg (by decide)]
    split
    · exact ⟨_, rfl⟩
    · rw [utf8_plain n h, ← List.map_drop]
      have hd : Spec.Plain (n.drop ((n.map UInt8.ofNat).length - ([84, 82, 69, 70] : Bytes).length)) := fun c hc => h c (List.mem_of_mem_drop hc)
      have := utf8_plain _ hd
      rw [← this]
      unfold Unicode.equalIC
      rw [Unicode.lowerCase_spec _ (fun c hc => (plain_name hd c hc).1), Outcome.ok_bind]
      rw [← ht, Unicode.lowerCase_spec _ (fun c hc => (plain_name hT c hc).1)]
      exact ⟨_, rfl⟩
  obtain ⟨b, hb⟩ := htot
  refine ⟨b, hb, ?_⟩
  rw [hb] at hi
  rw [← hi]
  simp

theorem turns_live {map : List Int} {f : Fld} {it : Iter} (he : it.eof = false) (n : Nat) (r : Unit) :
    turns map f it n ≠ .ok (some r) := by
  induction n with
  | zero => simp [turns]
  | succ n ih =>
    rw [turns, if_neg (by simp [he])]
    cases hv : visit map f it.buf with
    | ok u => simpa using ih
    | throw => simp
    | ub => simp

theorem whole_lt {t : Tab} {n : Nat} (h : Record.Spec.Whole t n) : n < 2 ^ 32 := by
  have : n ≤ t.file.length := by rw [h.2.1]; exact Nat.le_mul_of_pos_right _ h.1
  have := h.2.2
  omega

/-- A column without work is left at once. -/
theorem column_idle {t : Spec.Table} (ht : t.Good) {c : Spec.Column} (hc : c ∈ t.columns) (hi : Spec.Idle t c) (map : List Int) (fuel : Nat)
    (hf : t.records < fuel) : column map fuel (ofTable t) (ofColumn c) = .ok (some ()) := by
  obtain ⟨b, e1, e2⟩ := ends_plain c.name (ht.2 c hc).1
  have e1' : Unicode.endsWithIC (ofColumn c).name [84, 82, 69, 70] = .ok b := e1
  unfold column
  rw [e1', Outcome.ok_bind]
  split
  · rename_i hb
    split
    · rfl
    · rename_i hk
      have href : Spec.IsRef c := ⟨e2.1 hb, by by_contra h; exact hk (Or.inl h), by by_contra h; exact hk (Or.inr h)⟩
      obtain ⟨it, a1, a2⟩ := findFirst_ok ht.1 (whole_lt ht.1) t.records 0 fuel [] (by omega) hf
      have a1' : iterStart (ofTable t).tab (ofTable t).phys fuel = .ok (some it) := a1
      rw [a1']
      simp only [Outcome.ok_bind]
      rcases a2 with ⟨b1, _⟩ | ⟨_, _, b3, _, b5⟩
      · obtain ⟨k, rfl⟩ : ∃ k, fuel = k + 1 := ⟨fuel - 1, by omega⟩
        rw [turns, if_pos b1]
      · exfalso
        have hm : (it.num, it.buf) ∈ Record.Spec.liveOf t.tab (List.range' 0 t.records) := by rw [b5]; simp
        unfold Record.Spec.liveOf at hm
        obtain ⟨j, h1, h2⟩ := List.mem_map.1 hm
        have h3 := (List.mem_filter.1 h1).2
        have : j = it.num := by injection h2
        subst this
        exact hi href _ b3 (by simpa using h3)
  · rfl

/-- The first record of a column that has work. -/
theorem column_busy {t : Spec.Table} (ht : t.Good) {c : Spec.Column} (hc : c ∈ t.columns) (hr : Spec.IsRef c) {i : Nat} (hi : i < t.records)
    (hl : Record.Spec.Live t.tab i) (hfirst : ∀ j, j < i → ¬ Record.Spec.Live t.tab j) (map : List Int) (fuel : Nat) (hf : t.records < fuel) :
    ∃ it : Iter, it.eof = false ∧ it.buf = Record.Spec.record t.tab i ∧
      column map fuel (ofTable t) (ofColumn c) = turns map (ofColumn c) it fuel := by
  obtain ⟨b, e1, e2⟩ := ends_plain c.name (ht.2 c hc).1
  obtain ⟨it, a1, a2⟩ := findFirst_ok ht.1 (whole_lt ht.1) t.records 0 fuel [] (by omega) hf
  have hex : (i, Record.Spec.record t.tab i) ∈ Record.Spec.liveOf t.tab (List.range' 0 t.records) := by
    unfold Record.Spec.liveOf
    refine List.mem_map.2 ⟨i, List.mem_filter.2 ⟨?_, by simpa using hl⟩, rfl⟩
    rw [List.mem_range'_1]; omega
  have hcol : column map fuel (ofTable t) (ofColumn c) = turns map (ofColumn c) it fuel := by
    unfold column
    have a1' : iterStart (ofTable t).tab (ofTable t).phys fuel = .ok (some it) := a1
    have e1' : Unicode.endsWithIC (ofColumn c).name [84, 82, 69, 70] = .ok b := e1
    rw [e1', Outcome.ok_bind, if_pos (e2.2 hr.1), if_neg (by show ¬ (c.type ≠ _ ∨ c.length ≠ _); rw [hr.2.1, hr.2.2]; simp)]
    rw [a1']
    rfl
  rcases a2 with ⟨_, b2⟩ | ⟨b1, _, b3, b4, b5⟩
  · rw [b2] at hex; cases hex
  · refine ⟨it, b1, ?_, hcol⟩
    have hlive : Record.Spec.Live t.tab it.num := by
      have hm : (it.num, it.buf) ∈ Record.Spec.liveOf t.tab (List.range' 0 t.records) := by rw [b5]; simp
      unfold Record.Spec.liveOf at hm
      obtain ⟨j, h1, h2⟩ := List.mem_map.1 hm
      have h3 := (List.mem_filter.1 h1).2
      have : j = it.num := by injection h2
      subst this
      simpa using h3
    have : it.num = i := by
      rcases Nat.lt_trichotomy it.num i with h | h | h
      · exact absurd hlive (hfirst _ h)
      · exact h
      · exfalso
        rw [b5] at hex
        rcases List.mem_cons.1 hex with h6 | h6
        · injection h6 with h7; omega
        · unfold Record.Spec.liveOf at h6
          obtain ⟨j, h7, h8⟩ := List.mem_map.1 h6
          have h9 := (List.mem_filter.1 h7).1
          rw [List.mem_range'_1] at h9
          injection h8 with h10
          omega
    rw [b4, this]

theorem first_live {t : Tab} {n i : Nat} (hi : i < n) (hl : Record.Spec.Live t i) :
    ∃ k, k < n ∧ Record.Spec.Live t k ∧ ∀ j, j < k → ¬ Record.Spec.Live t j := by
  induction i using Nat.strongRecOn with
  | _ i ih =>
    by_cases h : ∃ j, j < i ∧ Record.Spec.Live t j
    · obtain ⟨j, h1, h2⟩ := h
      exact ih j h1 (by omega) h2
    · exact ⟨i, hi, hl, fun j hj hl' => h ⟨j, hj, hl'⟩⟩

theorem columns_idle {t : Spec.Table} (ht : t.Good) (cs : List Spec.Column) (hc : ∀ c ∈ cs, c ∈ t.columns ∧ Spec.Idle t c) (map : List Int) (fuel : Nat)
    (hf : t.records < fuel) (rest : List Fld) :
    columns map fuel (ofTable t) (cs.map ofColumn ++ rest) = columns map fuel (ofTable t) rest := by
  induction cs with
  | nil => rfl
  | cons c cs ih =>
    rw [List.map_cons, List.cons_append, columns, column_idle ht (hc c (by simp)).1 (hc c (by simp)).2 map fuel hf]
    simp only [Outcome.ok_bind]
    exact ih (fun z hz => hc z (by simp [hz]))

theorem tables_idle (ts : List Spec.Table) (h : ∀ t ∈ ts, t.Good ∧ ∀ c ∈ t.columns, Spec.Idle t c) (map : List Int) (fuel : Nat)
    (hf : ∀ t ∈ ts, t.records < fuel) (rest : List Table) :
    tables map fuel (ts.map ofTable ++ rest) = tables map fuel rest := by
  induction ts with
  | nil => rfl
  | cons t ts ih =>
    have := columns_idle (h t (by simp)).1 t.columns (fun c hc => ⟨hc, (h t (by simp)).2 c hc⟩) map fuel (hf t (by simp)) []
    rw [List.append_nil] at this
    have hfl : (ofTable t).fields = t.columns.map ofColumn := rfl
    rw [List.map_cons, List.cons_append, tables, hfl, this, columns]
    simp only [Outcome.ok_bind]
    exact ih (fun z hz => h z (by simp [hz])) (fun z hz => hf z (by simp [hz]))

theorem columns_stuck {map : List Int} {fuel : Nat} {t : Table} {f : Fld} (h : ∀ r, column map fuel t f ≠ .ok (some r)) (fs : List Fld) (hm : f ∈ fs)
    (r : Unit) : columns map fuel t fs ≠ .ok (some r) := by
  induction fs with
  | nil => cases hm
  | cons g fs ih =>
    rw [columns]
    rcases List.mem_cons.1 hm with rfl | hm
    · cases hc : column map fuel t f with
      | ok o =>
        cases o with
        | none => simp
        | some u => exact absurd hc (h u)
      | throw => simp
      | ub => simp
    · cases hc : column map fuel t g with
      | ok o =>
        cases o with
        | none => simp
        | some u => simpa using ih hm
      | throw => simp
      | ub => simp

theorem tables_stuck {map : List Int} {fuel : Nat} {t : Table} (h : ∀ r, columns map fuel t t.fields ≠ .ok (some r)) (ts : List Table) (hm : t ∈ ts)
    (r : Unit) : tables map fuel ts ≠ .ok (some r) := by
  induction ts with
  | nil => cases hm
  | cons g ts ih =>
    rw [tables]
    rcases List.mem_cons.1 hm with rfl | hm
    · cases hc : columns map fuel t t.fields with
      | ok o =>
        cases o with
        | none => simp
        | some u => exact absurd hc (h u)
      | throw => simp
      | ub => simp
    · cases hc : columns map fuel g g.fields with
      | ok o =>
        cases o with
        | none => simp
        | some u => simpa using ih hm
      | throw => simp
      | ub => simp

/-- **C101, negation.** Whatever numbers the map gives, the call returns exactly if there is nothing to replace: no column with numbers of tables in a table with
records. Then it says true, and the tables are what they were. -/
theorem returns_iff (b : Bytes) (m : List Int) (hm : readMap b = .ok m) (ts : List Spec.Table) (hts : ∀ t ∈ ts, t.Good) :
    ((∃ fuel r, replace fuel b (ts.map ofTable) = .ok (some r)) ↔ ∀ t ∈ ts, ∀ c ∈ t.columns, Spec.Idle t c) ∧
    ∀ fuel r, replace fuel b (ts.map ofTable) = .ok (some r) → r = (true, ts.map ofTable) := by
  have h2 : ∀ fuel r, replace fuel b (ts.map ofTable) = .ok (some r) → r = (true, ts.map ofTable) ∧ ∃ u, tables m fuel (ts.map ofTable) = .ok (some u) := by
    intro fuel r h
    unfold replace at h
    rw [hm, Outcome.ok_bind] at h
    cases ht : tables m fuel (ts.map ofTable) with
    | ok o =>
      rw [ht] at h
      cases o with
      | none => cases h
      | some u =>
        simp only [Outcome.ok_bind, Outcome.ok.injEq, Option.some.injEq] at h
        exact ⟨h.symm, u, rfl⟩
    | throw => rw [ht] at h; cases h
    | ub => rw [ht] at h; cases h
  refine ⟨⟨?_, ?_⟩, fun fuel r h => (h2 fuel r h).1⟩
  · rintro ⟨fuel, r, h⟩ t ht c hc href i hi hl
    obtain ⟨_, u, hu⟩ := h2 fuel r h
    obtain ⟨k, hk1, hk2, hk3⟩ := first_live hi hl
    refine tables_stuck (t := ofTable t) ?_ _ (List.mem_map.2 ⟨t, ht, rfl⟩) u hu
    apply columns_stuck (f := ofColumn c) _ _ (List.mem_map.2 ⟨c, hc, rfl⟩)
    intro v hv
    by_cases hf : t.records < fuel
    · obtain ⟨it, a1, _, a3⟩ := column_busy (hts t ht) hc href hk1 hk2 hk3 m fuel hf
      rw [a3] at hv
      exact turns_live a1 fuel v hv
    · -- the search alone may end, and then the iterator stands on a record
      obtain ⟨bb, e1, e2⟩ := ends_plain c.name ((hts t ht).2 c hc).1
      unfold column at hv
      have e1' : Unicode.endsWithIC (ofColumn c).name [84, 82, 69, 70] = .ok bb := e1
      rw [e1', Outcome.ok_bind, if_pos (e2.2 href.1), if_neg (by show ¬ (c.type ≠ _ ∨ c.length ≠ _); rw [href.2.1, href.2.2]; simp)] at hv
      cases hs : iterStart (ofTable t).tab (ofTable t).phys fuel with
      | throw => rw [hs] at hv; cases hv
      | ub => rw [hs] at hv; cases hv
      | ok o =>
        cases o with
        | none => rw [hs] at hv; cases hv
        | some it =>
          rw [hs] at hv
          simp only [Outcome.ok_bind] at hv
          have hmono : ∀ (fu : Nat) (i0 : Iter) (r : Iter), findFirst t.tab t.records fu i0 = .ok (some r) →
              findFirst t.tab t.records (fu + (t.records + 1)) i0 = .ok (some r) := by
            intro fu
            induction fu with
            | zero => intro i0 r h; rw [findFirst] at h; cases h
            | succ fu ih =>
              intro i0 r h
              rw [show fu + 1 + (t.records + 1) = (fu + (t.records + 1)) + 1 by omega]
              rw [findFirst] at h ⊢
              split
              · rename_i h1; rw [if_pos h1] at h; exact h
              · rename_i h1
                rw [if_neg h1] at h
                split
                · rename_i h3; rw [if_pos h3] at h; exact h
                · rename_i h3
                  rw [if_neg h3] at h
                  cases hg : getRecord t.tab i0.num with
                  | throw => rw [hg] at h; cases h
                  | ub => rw [hg] at h; cases h
                  | ok rb =>
                    rw [hg] at h
                    simp only [Outcome.ok_bind] at h ⊢
                    cases hrm : isRemoved rb with
                    | throw => rw [hrm] at h; cases h
                    | ub => rw [hrm] at h; cases h
                    | ok x =>
                      rw [hrm] at h
                      simp only [Outcome.ok_bind] at h ⊢
                      cases x with
                      | true => exact ih _ _ h
                      | false => exact h
          have hbig := hmono fuel _ it hs
          obtain ⟨it', a1, a2⟩ := findFirst_ok (hts t ht).1 (whole_lt (hts t ht).1) t.records 0 (fuel + (t.records + 1)) [] (by omega) (by omega)
          have hsame : it = it' := by
            rw [a1] at hbig
            simpa using hbig.symm
          subst hsame
          rcases a2 with ⟨_, b2⟩ | ⟨b1, _⟩
          · have hex : (k, Record.Spec.record t.tab k) ∈ Record.Spec.liveOf t.tab (List.range' 0 t.records) := by
              unfold Record.Spec.liveOf
              refine List.mem_map.2 ⟨k, List.mem_filter.2 ⟨?_, by simpa using hk2⟩, rfl⟩
              rw [List.mem_range'_1]; omega
            rw [b2] at hex; cases hex
          · exact turns_live b1 fuel v hv
  · intro hidle
    obtain ⟨fuel, hf⟩ : ∃ fuel, ∀ t ∈ ts, t.records < fuel := by
      clear hidle h2 hts
      induction ts with
      | nil => exact ⟨0, by simp⟩
      | cons t ts ih =>
        obtain ⟨f, hf⟩ := ih
        refine ⟨max f (t.records + 1), fun z hz => ?_⟩
        rcases List.mem_cons.1 hz with rfl | hz
        · omega
        · have := hf z hz; omega
    refine ⟨fuel, (true, ts.map ofTable), ?_⟩
    have := tables_idle ts (fun t ht => ⟨hts t ht, hidle t ht⟩) m fuel hf []
    rw [List.append_nil] at this
    unfold replace
    rw [hm, Outcome.ok_bind, this, tables]
    rfl

/-! ## What happens at the first record -/

theorem record_len {t : Tab} {n i : Nat} (h : Record.Spec.Whole t n) (hi : i < n) : (Record.Spec.record t i).length = t.reclen := record_length h hi

/-- What one turn makes of the number in the record. -/
theorem visit_spec {map : List Int} {f : Fld} {r : Bytes} (hw : f.slot.width = 4) (h : f.slot.offset + f.slot.size ≤ r.length) :
    visit map f r = if Spec.number r f.slot = 0 ∨ Spec.number r f.slot < map.length then .ok () else .ub := by
  have hs : f.slot.dataOff + 4 ≤ r.length := by
    unfold Slot.size at h
    unfold Slot.dataOff
    omega
  have hval : (r.drop f.slot.dataOff).take 4 = Record.Spec.value r f.slot := by
    unfold Record.Spec.value
    rw [hw]
    rfl
  have hget : ∃ v, get r f.slot 4 = .ok v ∧ bigEndian (v.getD []) = Spec.number r f.slot := by
    unfold Record.get isNull
    by_cases hn : f.slot.nullable = true
    · have h1 : f.slot.offset + 1 ≤ r.length := by
        unfold Slot.size at h
        rw [hn] at h
        simp only [if_true] at h
        omega
      rw [if_pos hn, load_ok h1, Outcome.ok_bind, Outcome.ok_bind]
      have hd : (r.drop f.slot.offset).take 1 = [0] ↔ (r.drop f.slot.offset).head? = some 0 := by
        cases r.drop f.slot.offset with
        | nil => simp
        | cons a l => simp
      by_cases h0 : (r.drop f.slot.offset).head? = some 0
      · rw [if_pos (by simpa using hd.2 h0)]
        refine ⟨none, rfl, ?_⟩
        unfold Spec.number
        rw [if_pos ⟨hn, h0⟩]
        rfl
      · rw [if_neg (by simpa using fun e => h0 (hd.1 e)), load_ok hs]
        refine ⟨_, rfl, ?_⟩
        unfold Spec.number
        rw [if_neg (fun e => h0 e.2), Option.getD_some, hval]
        rfl
    · rw [if_neg hn, Outcome.ok_bind, if_neg (by simp), load_ok hs]
      refine ⟨_, rfl, ?_⟩
      unfold Spec.number
      rw [if_neg (fun e => hn e.1), Option.getD_some, hval]
      rfl
  obtain ⟨v, e1, e2⟩ := hget
  unfold visit
  rw [e1, Outcome.ok_bind]
  simp only [e2]
  by_cases h0 : Spec.number r f.slot = 0
  · rw [if_pos h0, if_pos (Or.inl h0)]
  · rw [if_neg h0]
    by_cases hlt : Spec.number r f.slot < map.length
    · rw [if_pos (Or.inr hlt), List.getElem?_eq_getElem hlt]
      simp only
      have : ∀ z, set r f.slot (bytesOf z) = .ok (r.take f.slot.dataOff ++ bytesOf z ++ r.drop (f.slot.dataOff + 4)) := by
        intro z
        unfold Record.set store
        rw [if_pos (by exact hs)]
        rfl
      rw [this, Outcome.ok_bind]
    · rw [if_neg (by rintro (h | h) <;> contradiction), List.getElem?_eq_none (by omega)]

/-- The first place with work in the base: the tables before have none, nor have the columns before, and record `i` is the first live one. -/
structure Spec.First (ts : List Spec.Table) (t : Spec.Table) (c : Spec.Column) (i : Nat) : Prop where
  place : ∃ before after cb ca, ts = before ++ t :: after ∧ t.columns = cb ++ c :: ca ∧
    (∀ t' ∈ before, ∀ c' ∈ t'.columns, Spec.Idle t' c') ∧ (∀ c' ∈ cb, Spec.Idle t c')
  ref : Spec.IsRef c
  lt : i < t.records
  live : Record.Spec.Live t.tab i
  first : ∀ j, j < i → ¬ Record.Spec.Live t.tab j

/-- The call is as far as that record. -/
theorem reaches {ts : List Spec.Table} {t : Spec.Table} {c : Spec.Column} {i : Nat} (hp : Spec.First ts t c i) (hts : ∀ t ∈ ts, t.Good)
    (b : Bytes) (m : List Int) (hm : readMap b = .ok m) (fuel : Nat) (hf : ∀ t ∈ ts, t.records < fuel) :
    ∃ it : Iter, it.eof = false ∧ it.buf = Record.Spec.record t.tab i ∧
      (turns m (ofColumn c) it fuel = .ok none → replace fuel b (ts.map ofTable) = .ok none) ∧
      (turns m (ofColumn c) it fuel = .ub → replace fuel b (ts.map ofTable) = .ub) := by
  obtain ⟨before, after, cb, ca, rfl, h2, h3, h4⟩ := hp.place
  have hg : t.Good := hts t (by simp)
  obtain ⟨it, a1, a2, a3⟩ := column_busy hg (c := c) (by rw [h2]; simp) hp.ref hp.lt hp.live hp.first m fuel (hf t (by simp))
  refine ⟨it, a1, a2, ?_⟩
  have e1 : tables m fuel ((before ++ t :: after).map ofTable) = tables m fuel (ofTable t :: after.map ofTable) := by
    rw [List.map_append, List.map_cons]
    exact tables_idle before (fun z hz => ⟨hts z (by simp [hz]), h3 z hz⟩) m fuel (fun z hz => hf z (by simp [hz])) _
  have e2 : columns m fuel (ofTable t) (ofTable t).fields = columns m fuel (ofTable t) (ofColumn c :: ca.map ofColumn) := by
    have hfl : (ofTable t).fields = cb.map ofColumn ++ (ofColumn c :: ca.map ofColumn) := by
      show t.columns.map ofColumn = _
      rw [h2, List.map_append, List.map_cons]
    rw [hfl]
    exact columns_idle hg cb (fun z hz => ⟨by rw [h2]; simp [hz], h4 z hz⟩) m fuel (hf t (by simp)) _
  unfold replace
  rw [hm, Outcome.ok_bind, e1, tables, e2, columns, a3]
  constructor <;> (intro h; rw [h]; rfl)

/-- **C101, negation.** If the first number to be replaced is in the map, or is 0, the call never ends. -/
theorem never_ends {ts : List Spec.Table} {t : Spec.Table} {c : Spec.Column} {i : Nat} (hp : Spec.First ts t c i) (hts : ∀ t ∈ ts, t.Good)
    (b : Bytes) (m : List Int) (hm : readMap b = .ok m)
    (hn : Spec.number (Record.Spec.record t.tab i) c.slot = 0 ∨ Spec.number (Record.Spec.record t.tab i) c.slot < m.length)
    (fuel : Nat) (hf : ∀ t ∈ ts, t.records < fuel) : replace fuel b (ts.map ofTable) = .ok none := by
  obtain ⟨it, a1, a2, a3, a4⟩ := reaches hp hts b m hm fuel hf
  apply a3
  obtain ⟨before, after, cb, ca, hh, h2, _, _⟩ := hp.place
  have hg : t.Good := hts t (by rw [hh]; simp)
  have hc := hg.2 c (by rw [h2]; simp)
  have hv : visit m (ofColumn c) it.buf = .ok () := by
    rw [a2, visit_spec (f := ofColumn c) hc.2.2 (by rw [record_len hg.1 hp.lt]; exact hc.2.1)]
    exact if_pos hn
  clear a2 a3 a4 hf
  induction fuel with
  | zero => rfl
  | succ n ih =>
    rw [turns, if_neg (by simp [a1]), hv, Outcome.ok_bind]
    exact ih

/-- **C101, negation.** If the first number to be replaced is greater than all that the map tells, memory behind the map is read. -/
theorem unknown_number_undefined {ts : List Spec.Table} {t : Spec.Table} {c : Spec.Column} {i : Nat} (hp : Spec.First ts t c i) (hts : ∀ t ∈ ts, t.Good)
    (b : Bytes) (m : List Int) (hm : readMap b = .ok m) (hn : m.length ≤ Spec.number (Record.Spec.record t.tab i) c.slot)
    (h0 : Spec.number (Record.Spec.record t.tab i) c.slot ≠ 0)
    (fuel : Nat) (hf : ∀ t ∈ ts, t.records < fuel) : replace fuel b (ts.map ofTable) = .ub := by
  obtain ⟨it, a1, a2, _, a3⟩ := reaches hp hts b m hm fuel hf
  apply a3
  obtain ⟨before, after, cb, ca, hh, h2, _, _⟩ := hp.place
  have hg : t.Good := hts t (by rw [hh]; simp)
  have hc := hg.2 c (by rw [h2]; simp)
  have hv : visit m (ofColumn c) it.buf = .ub := by
    rw [a2, visit_spec (f := ofColumn c) hc.2.2 (by rw [record_len hg.1 hp.lt]; exact hc.2.1)]
    exact if_neg (by rintro (h | h); exacts [h0 h, Nat.lt_irrefl _ (Nat.lt_of_lt_of_le h hn)])
  have : 0 < fuel := by have := hf t (by rw [hh]; simp); omega
  obtain ⟨k, rfl⟩ : ∃ k, fuel = k + 1 := ⟨fuel - 1, by omega⟩
  rw [turns, if_neg (by simp [a1]), hv]
  rfl

end Verif.Tref
