import Verif.Export.Model
import Verif.Export.Spec

/-! # Lemmas: what the reader makes of the pieces of a document -/

namespace Verif.Export
open Verif Spec

theorem readGo_open (d : Doc) (m : Mode) (s : Str) : readGo d m none ('<' :: s) = readGo d m (some []) s := by
  cases m <;> simp [readGo]

theorem readGo_char (d : Doc) (m : Mode) (c : Char) (s : Str) (hc : c ≠ '<') :
    readGo d m none (c :: s) = (step d m (.char c)).bind (fun p => readGo p.1 p.2 none s) := by
  cases m <;> simp [readGo, hc]

theorem readGo_tag (d : Doc) (m : Mode) (t s : Str) : ∀ t', '>' ∉ t →
    readGo d m (some t') (t ++ '>' :: s) = (step d m (.mark (t' ++ t))).bind (fun p => readGo p.1 p.2 none s) := by
  induction t with
  | nil =>
    intro t' _
    cases m <;> simp [readGo]
  | cons c t ih =>
    intro t' h
    have hc : c ≠ '>' := fun e => h (e ▸ List.mem_cons_self ..)
    have ht : '>' ∉ t := fun e => h (List.mem_cons_of_mem _ e)
    have h1 : readGo d m (some t') (c :: t ++ '>' :: s) = readGo d m (some (t' ++ [c])) (t ++ '>' :: s) := by
      cases m <;> simp [readGo, hc]
    rw [h1, ih _ ht]
    simp

theorem readGo_mark (d : Doc) (m : Mode) (t s : Str) (h : '>' ∉ t) :
    readGo d m none ('<' :: (t ++ '>' :: s)) = (step d m (.mark t)).bind (fun p => readGo p.1 p.2 none s) := by
  rw [readGo_open, readGo_tag d m t s [] h]
  rfl

/-- Text outside of values is skipped. -/
theorem readGo_skip (d : Doc) (m : Mode) (hm : ∀ cs n v, m ≠ .cell cs n v) (t s : Str) (h : '<' ∉ t) :
    readGo d m none (t ++ s) = readGo d m none s := by
  induction t with
  | nil => rfl
  | cons c t ih =>
    have hc : c ≠ '<' := fun e => h (e ▸ List.mem_cons_self ..)
    rw [List.cons_append, readGo_char _ _ _ _ hc]
    have : step d m (.char c) = some (d, m) := by
      cases m <;> first | rfl | exact absurd rfl (hm _ _ _)
    rw [this]
    exact ih (fun e => h (List.mem_cons_of_mem _ e))

theorem readGo_value (d : Doc) (cs : List (Str × Option Str)) (n t s : Str) (h : '<' ∉ t) : ∀ v,
    readGo d (.cell cs n v) none (t ++ s) = readGo d (.cell cs n (v ++ t)) none s := by
  induction t with
  | nil => intro v; simp
  | cons c t ih =>
    intro v
    have hc : c ≠ '<' := fun e => h (e ▸ List.mem_cons_self ..)
    rw [List.cons_append, readGo_char _ _ _ _ hc]
    have : step d (.cell cs n v) (.char c) = some (d, .cell cs n (v ++ [c])) := rfl
    rw [this]
    simp only [Option.bind_some]
    rw [ih (fun e => h (List.mem_cons_of_mem _ e))]
    simp

/-! ## Attributes -/

theorem attrs_key (k s : Str) (h : '=' ∉ k) : ∀ k', attrs (.key k') (k ++ '=' :: s) = attrs (.opening (k' ++ k)) s := by
  induction k with
  | nil => intro k'; simp [attrs]
  | cons c k ih =>
    intro k'
    have hc : c ≠ '=' := fun e => h (e ▸ List.mem_cons_self ..)
    rw [List.cons_append, attrs, if_neg hc, ih (fun e => h (List.mem_cons_of_mem _ e))]
    simp

theorem attrs_value (k v s : Str) (h : '"' ∉ v) : ∀ v', attrs (.value k v') (v ++ '"' :: s) = (attrs .between s).map ((k, v' ++ v) :: ·) := by
  induction v with
  | nil => intro v'; simp [attrs]
  | cons c v ih =>
    intro v'
    have hc : c ≠ '"' := fun e => h (e ▸ List.mem_cons_self ..)
    rw [List.cons_append, attrs, if_neg hc, ih (fun e => h (List.mem_cons_of_mem _ e))]
    simp

/-- An attribute as it is written. -/
def attrText (k v : Str) : Str := ' ' :: (k ++ '=' :: '"' :: (v ++ ['"']))

theorem attrs_one (k v s : Str) (hk : '=' ∉ k) (hv : '"' ∉ v) : attrs .between (attrText k v ++ s) = (attrs .between s).map ((k, v) :: ·) := by
  have e : attrText k v ++ s = ' ' :: (k ++ '=' :: '"' :: (v ++ '"' :: s)) := by
    simp [attrText]
  rw [e, attrs, if_pos rfl, attrs_key k _ hk []]
  rw [attrs, if_pos rfl, attrs_value _ v s hv []]
  rfl

theorem attrText_gt {k v : Str} (hk : '>' ∉ k) (hv : '>' ∉ v) : '>' ∉ attrText k v := by
  simp [attrText, hk, hv]

/-! ## The pieces -/

theorem good_gt {n : Str} (h : GoodName n) : '>' ∉ n := fun e => (h.2 _ e).2.1 rfl
theorem good_lt {n : Str} (h : GoodName n) : '<' ∉ n := fun e => (h.2 _ e).1 rfl
theorem good_quote {n : Str} (h : GoodName n) : '"' ∉ n := fun e => (h.2 _ e).2.2.1 rfl
theorem good_slash {n : Str} (h : GoodName n) : '/' ∉ n := fun e => (h.2 _ e).2.2.2 rfl

/-- The marks at the beginning. -/
def xmlMark : Str := "?xml version=\"1.0\" encoding=\"UTF-8\"?".toList
def noteMark : Str := "!--Файл сформирован программой Tool_1CD--".toList

theorem xmlMark_ok : '>' ∉ xmlMark ∧ ¬ xmlMark.take 5 = "Table".toList := by decide +kernel
theorem noteMark_ok : '>' ∉ noteMark ∧ ¬ noteMark.take 5 = "Table".toList := by decide +kernel
theorem take_lit (table : Str) : ("Table".toList ++ (attrText "Name".toList table ++ [])).take 5 = "Table".toList := rfl
theorem drop_lit (table : Str) : ("Table".toList ++ (attrText "Name".toList table ++ [])).drop 5 = attrText "Name".toList table ++ [] := rfl
theorem take_field (x : Str) : ("Field".toList ++ x).take 5 = "Field".toList := rfl
theorem drop_field (x : Str) : ("Field".toList ++ x).drop 5 = x := rfl

theorem head_split (table s : Str) : head table ++ s = ['\uFEFF'] ++ ('<' :: (xmlMark ++ '>' :: ("\r\n".toList ++
      ('<' :: (noteMark ++ '>' :: ("\r\n".toList ++
      ('<' :: (("Table".toList ++ (attrText "Name".toList table ++ [])) ++ '>' :: ("\r\n\t".toList ++ ('<' :: ("Fields".toList ++ '>' :: ("\r\n".toList ++ s)))))))))))) := by
  have h1 : "<?xml version=\"1.0\" encoding=\"UTF-8\"?>\r\n<!--Файл сформирован программой Tool_1CD-->\r\n<Table Name=\"".toList =
      '<' :: (xmlMark ++ '>' :: ("\r\n".toList ++
      ('<' :: (noteMark ++ '>' :: ("\r\n".toList ++
      ('<' :: ("Table".toList ++ (' ' :: ("Name".toList ++ '=' :: '"' :: []))))))))) := by decide +kernel
  have h2 : "\">\r\n\t<Fields>\r\n".toList = '"' :: '>' :: ("\r\n\t".toList ++ ('<' :: ("Fields".toList ++ '>' :: "\r\n".toList))) := by decide +kernel
  unfold head attrText
  rw [h1, h2]
  generalize xmlMark = a
  generalize noteMark = b
  generalize "Table".toList = t
  generalize "Name".toList = n
  generalize "\r\n".toList = r
  generalize "Fields".toList = f
  generalize "\r\n\t".toList = r'
  simp only [List.append_assoc, List.cons_append, List.nil_append]

theorem read_prolog (d : Doc) (t s : Str) (h1 : '>' ∉ t) (h2 : ¬ t.take 5 = "Table".toList) :
    readGo d .prolog none ('<' :: (t ++ '>' :: s)) = readGo d .prolog none s := by
  rw [readGo_mark _ _ _ _ h1, step, if_neg h2]
  rfl

theorem read_table (d : Doc) (table s : Str) (h : GoodName table) :
    readGo d .prolog none ('<' :: (("Table".toList ++ (attrText "Name".toList table ++ [])) ++ '>' :: s)) = readGo { d with table := [("Name".toList, table)] } .table none s := by
  rw [readGo_mark _ _ _ _ (by
    rw [List.append_nil, List.mem_append, not_or]
    exact ⟨by decide, attrText_gt (by decide) (good_gt h)⟩)]
  rw [step, if_pos (take_lit table), drop_lit table, attrs_one _ _ _ (by decide) (good_quote h)]
  simp only [attrs, Option.map_some, Option.bind_some]

theorem read_fields_mark (d : Doc) (s : Str) : readGo d .table none ('<' :: ("Fields".toList ++ '>' :: s)) = readGo d .fields none s := by
  rw [readGo_mark _ _ _ _ (by decide)]
  rfl

theorem read_head (table s : Str) (h : GoodName table) :
    readGo ⟨[], [], []⟩ .prolog none (head table ++ s) = readGo ⟨[("Name".toList, table)], [], []⟩ .fields none s := by
  rw [head_split]
  obtain ⟨a1, a2⟩ := xmlMark_ok
  obtain ⟨b1, b2⟩ := noteMark_ok
  generalize xmlMark = a at *
  generalize noteMark = b at *
  rw [readGo_skip _ _ (by simp) _ _ (by decide), read_prolog _ _ _ a1 a2, readGo_skip _ _ (by simp) _ _ (by decide), read_prolog _ _ _ b1 b2,
    readGo_skip _ _ (by simp) _ _ (by decide), read_table _ _ _ h, readGo_skip _ _ (by simp) _ _ (by decide), read_fields_mark,
    readGo_skip _ _ (by simp) _ _ (by decide)]

theorem repr_digits (n : Nat) : ∀ c ∈ (Nat.repr n).toList, c.isDigit = true := by
  intro c hc
  rw [Nat.repr, String.toList_ofList] at hc
  exact Nat.isDigit_of_mem_toDigits (by decide) (by decide) hc

theorem repr_not (n : Nat) (c : Char) (h : c.isDigit = false) : c ∉ (Nat.repr n).toList := by
  intro hc
  rw [repr_digits n c hc] at h
  cases h

/-- What the document says about a field. -/
def fieldAttrs (c : Column) : List (Str × Str) :=
  [("Name".toList, c.name), ("Type".toList, c.type), ("Length".toList, (Nat.repr c.length).toList), ("Precision".toList, (Nat.repr c.precision).toList),
   ("NotNull".toList, if c.nullable then "false".toList else "true".toList)]

theorem field_split (c : Column) (s nb : Str) (hb : (if c.nullable then "false".toList else "true".toList) = nb) :
    fieldText c ++ s = "\t\t".toList ++ ('<' :: (("Field".toList ++ ((attrText "Name".toList c.name ++ (attrText "Type".toList c.type ++
      (attrText "Length".toList (Nat.repr c.length).toList ++ (attrText "Precision".toList (Nat.repr c.precision).toList ++ (attrText "NotNull".toList nb ++ []))))) ++ ['/'])) ++
      '>' :: ("\r\n".toList ++ s))) := by
  unfold fieldText attrText
  rw [hb]
  generalize (Nat.repr c.length).toList = l1
  generalize (Nat.repr c.precision).toList = l2
  simp only [List.append_assoc, List.cons_append, List.nil_append]
  rfl

theorem read_field (d : Doc) (c : Column) (s : Str) (hn : GoodName c.name) (ht : GoodName c.type) :
    readGo d .fields none (fieldText c ++ s) = readGo { d with fields := d.fields ++ [fieldAttrs c] } .fields none s := by
  generalize hb : (if c.nullable then "false".toList else "true".toList) = nb
  have hnb : nb = "false".toList ∨ nb = "true".toList := by
    rw [← hb]; split <;> simp
  rw [field_split c s nb hb, readGo_skip _ _ (by simp) _ _ (by decide), readGo_mark _ _ _ _ ?_]
  · have h3 : ∀ x : Str, "Field".toList ++ x ≠ "/Fields".toList := by
      intro x h
      have := congrArg List.head? h
      revert this
      show some 'F' = some '/' → False
      decide
    rw [step, if_neg (h3 _), if_pos (take_field _), drop_field, emptyMark, if_pos (by rw [List.getLast?_append]; rfl), List.dropLast_concat]
    simp only [Option.bind_some]
    rw [attrs_one _ _ _ (by decide) (good_quote hn), attrs_one _ _ _ (by decide) (good_quote ht),
      attrs_one _ _ _ (by decide) (repr_not _ _ (by decide)), attrs_one _ _ _ (by decide) (repr_not _ _ (by decide)),
      attrs_one _ _ _ (by decide) (by rcases hnb with h | h <;> rw [h] <;> decide)]
    simp only [attrs, Option.map_some, Option.bind_some]
    rw [readGo_skip _ _ (by simp) _ _ (by decide)]
    unfold fieldAttrs
    rw [hb]
  · have h1 := attrText_gt (k := "Name".toList) (by decide) (good_gt hn)
    have h2 := attrText_gt (k := "Type".toList) (by decide) (good_gt ht)
    have h3 := attrText_gt (k := "Length".toList) (by decide) (repr_not c.length '>' (by decide))
    have h4 := attrText_gt (k := "Precision".toList) (by decide) (repr_not c.precision '>' (by decide))
    have h5 : '>' ∉ attrText "NotNull".toList nb := attrText_gt (by decide) (by rcases hnb with h | h <;> rw [h] <;> decide)
    simp only [List.mem_append, not_or]
    exact ⟨by decide, ⟨h1, h2, h3, h4, h5, by decide⟩, by decide⟩

theorem read_fields (cols : List Column) (s : Str) (h : ∀ c ∈ cols, GoodName c.name ∧ GoodName c.type) : ∀ d,
    readGo d .fields none (cols.flatMap fieldText ++ s) = readGo { d with fields := d.fields ++ cols.map fieldAttrs } .fields none s := by
  induction cols with
  | nil => intro d; simp
  | cons c cols ih =>
    intro d
    have hc := h c (List.mem_cons_self ..)
    rw [List.flatMap_cons, List.append_assoc, read_field d c _ hc.1 hc.2, ih (fun x hx => h x (List.mem_cons_of_mem _ hx))]
    simp

theorem read_between (d : Doc) (s : Str) : readGo d .fields none ("\t</Fields>\r\n\t<Records>\r\n".toList ++ s) = readGo d .records none s := by
  have e : "\t</Fields>\r\n\t<Records>\r\n".toList ++ s = "\t".toList ++ ('<' :: ("/Fields".toList ++ '>' :: ("\r\n\t".toList ++ ('<' :: ("Records".toList ++ '>' :: ("\r\n".toList ++ s)))))) := rfl
  rw [e, readGo_skip _ _ (by simp) _ _ (by decide), readGo_mark _ _ _ _ (by decide)]
  have h1 : step d .fields (.mark "/Fields".toList) = some (d, .between) := rfl
  rw [h1]
  simp only [Option.bind_some]
  rw [readGo_skip _ _ (by simp) _ _ (by decide), readGo_mark _ _ _ _ (by decide)]
  have h2 : step d .between (.mark "Records".toList) = some (d, .records) := rfl
  rw [h2]
  simp only [Option.bind_some]
  rw [readGo_skip _ _ (by simp) _ _ (by decide)]

theorem read_tail (d : Doc) : readGo d .records none "\t</Records>\r\n</Table>\r\n".toList = some d := by
  have e : "\t</Records>\r\n</Table>\r\n".toList = "\t".toList ++ ('<' :: ("/Records".toList ++ '>' :: ("\r\n".toList ++ ('<' :: ("/Table".toList ++ '>' :: ("\r\n".toList ++ [])))))) := rfl
  rw [e, readGo_skip _ _ (by simp) _ _ (by decide), readGo_mark _ _ _ _ (by decide)]
  have h1 : step d .records (.mark "/Records".toList) = some (d, .after) := rfl
  rw [h1]
  simp only [Option.bind_some]
  rw [readGo_skip _ _ (by simp) _ _ (by decide), readGo_mark _ _ _ _ (by decide)]
  have h2 : step d .after (.mark "/Table".toList) = some (d, .done) := rfl
  rw [h2]
  simp only [Option.bind_some]
  rw [readGo_skip _ _ (by simp) _ _ (by decide)]
  rfl

theorem good_not_close {n : Str} (h : GoodName n) : n ≠ "/Record".toList := by
  intro e
  rw [e] at h
  exact good_slash h (by decide)

theorem read_cell (d : Doc) (cs : List (Str × Option Str)) (n : Str) (v : Option Str) (s : Str) (hn : GoodName n) (hv : ∀ x, v = some x → '<' ∉ x) :
    readGo d (.record cs) none (cellText n v ++ s) = readGo d (.record (cs ++ [(n, v)])) none s := by
  cases v with
  | none =>
    have e : cellText n none ++ s = "\t\t\t".toList ++ ('<' :: ((n ++ ['/']) ++ '>' :: ("\r\n".toList ++ s))) := by
      unfold cellText
      simp only [List.append_assoc, List.cons_append, List.nil_append]
      rfl
    rw [e, readGo_skip _ _ (by simp) _ _ (by decide), readGo_mark _ _ _ _ (by
      simp only [List.mem_append, not_or]; exact ⟨good_gt hn, by decide⟩)]
    have hne : n ++ ['/'] ≠ "/Record".toList := by
      intro h
      have := congrArg List.getLast? h
      rw [List.getLast?_append] at this
      revert this
      show some '/' = some 'd' → False
      decide
    rw [step, if_neg hne, emptyMark, if_pos (by rw [List.getLast?_append]; rfl), List.dropLast_concat]
    simp only [Option.bind_some]
    rw [readGo_skip _ _ (by simp) _ _ (by decide)]
  | some v =>
    have e : cellText n (some v) ++ s = "\t\t\t".toList ++ ('<' :: (n ++ '>' :: (v ++ ('<' :: (('/' :: n) ++ '>' :: ("\r\n".toList ++ s)))))) := by
      unfold cellText
      simp only [List.append_assoc, List.cons_append, List.nil_append]
      rfl
    rw [e, readGo_skip _ _ (by simp) _ _ (by decide), readGo_mark _ _ _ _ (good_gt hn)]
    have hl : ¬ n.getLast? = some '/' := fun h => good_slash hn (List.mem_of_getLast? h)
    rw [step, if_neg (good_not_close hn), emptyMark, if_neg hl]
    simp only [Option.bind_some]
    rw [readGo_value _ _ _ _ _ (hv v rfl), readGo_mark _ _ _ _ (by
      simp only [List.mem_cons, not_or]; exact ⟨by decide, good_gt hn⟩), List.nil_append, step, if_pos rfl]
    simp only [Option.bind_some]
    rw [readGo_skip _ _ (by simp) _ _ (by decide)]

theorem read_row (d : Doc) (cs : List (Str × Option Str)) (s : Str) (h : ∀ c ∈ cs, GoodName c.1 ∧ ∀ x, c.2 = some x → '<' ∉ x) : ∀ cs0,
    readGo d (.record cs0) none (cs.flatMap (fun c => cellText c.1 c.2) ++ s) = readGo d (.record (cs0 ++ cs)) none s := by
  induction cs with
  | nil => intro cs0; simp
  | cons c cs ih =>
    intro cs0
    have hc := h c (List.mem_cons_self ..)
    rw [List.flatMap_cons, List.append_assoc, read_cell d cs0 c.1 c.2 _ hc.1 hc.2, ih (fun x hx => h x (List.mem_cons_of_mem _ hx))]
    simp

theorem read_record (d : Doc) (cs : List (Str × Option Str)) (s : Str) (h : ∀ c ∈ cs, GoodName c.1 ∧ ∀ x, c.2 = some x → '<' ∉ x) :
    readGo d .records none ("\t\t<Record>\r\n".toList ++ cs.flatMap (fun c => cellText c.1 c.2) ++ "\t\t</Record>\r\n".toList ++ s) =
      readGo { d with rows := d.rows ++ [cs] } .records none s := by
  have e : "\t\t<Record>\r\n".toList ++ cs.flatMap (fun c => cellText c.1 c.2) ++ "\t\t</Record>\r\n".toList ++ s =
      "\t\t".toList ++ ('<' :: ("Record".toList ++ '>' :: ("\r\n".toList ++ (cs.flatMap (fun c => cellText c.1 c.2) ++
        ("\t\t".toList ++ ('<' :: ("/Record".toList ++ '>' :: ("\r\n".toList ++ s)))))))) := by
    simp only [List.append_assoc]
    rfl
  rw [e, readGo_skip _ _ (by simp) _ _ (by decide), readGo_mark _ _ _ _ (by decide)]
  have h1 : step d .records (.mark "Record".toList) = some (d, .record []) := rfl
  rw [h1]
  simp only [Option.bind_some]
  rw [readGo_skip _ _ (by simp) _ _ (by decide), read_row d cs _ h, readGo_skip _ _ (by simp) _ _ (by decide), readGo_mark _ _ _ _ (by decide), List.nil_append]
  have h2 : step d (.record cs) (.mark "/Record".toList) = some ({ d with rows := d.rows ++ [cs] }, .records) := rfl
  rw [h2]
  simp only [Option.bind_some]
  rw [readGo_skip _ _ (by simp) _ _ (by decide)]

end Verif.Export
