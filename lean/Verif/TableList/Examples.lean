import Verif.TableList.Theorems

/-! # C98: concrete cases -/

namespace Verif.TableList.Example
open Verif Verif.Unicode.Spec Verif.Format Verif.Format.Spec Verif.TableList Verif.TableList.Spec

/-- Nothing is compressed. -/
def z : Unzip := fun _ => .throw

def guid : String := "11111111-2222-3333-4444-555555555555"

/-- A list that begins with a blank: with a catalogue and its part, a field, and an entry of nothing. -/
def list : String := "\n{1,{4,{" ++ guid ++ ",\"Reference\",5},{" ++ guid ++ ",\"VT\",6},{" ++ guid ++ ",\"fld\",7},{00000000-0000-0000-0000-000000000000,\"Chrc\",8}}}"

def es : List Item :=
  [⟨word guid, word "Reference", word "5"⟩, ⟨word guid, word "VT", word "6"⟩, ⟨word guid, word "fld", word "7"⟩, ⟨noGuid, word "Chrc", word "8"⟩]

/-- The entries of nodes, computed. -/
def isEntries : List Tree.Node → List Item → Bool
  | [], [] => true
  | t :: ts, e :: es =>
    (match t.kids with
      | a :: b :: c :: _ => a.value = (utf8Text e.guid).map (fun x => Char.ofNat x.toNat) && b.value = (utf8Text e.name).map (fun x => Char.ofNat x.toNat) &&
          c.value = (utf8Text e.num).map (fun x => Char.ofNat x.toNat)
      | _ => false) && isEntries ts es
  | _, _ => false

theorem isEntries_sound : ∀ (ts : List Tree.Node) (es : List Item), isEntries ts es = true → Entries ts es
  | [], [], _ => .nil
  | [], _ :: _, h => by simp [isEntries] at h
  | _ :: _, [], h => by simp [isEntries] at h
  | t :: ts, e :: es, h => by
    rw [isEntries, Bool.and_eq_true] at h
    obtain ⟨h, ht⟩ := h
    split at h
    · rename_i a b c _ hk
      simp only [Bool.and_eq_true, decide_eq_true_eq] at h
      exact .cons (by rw [hk]; rfl) (by rw [hk]; rfl) (by rw [hk]; rfl) h.1.1 h.1.2 h.2 (isEntries_sound ts es ht)
    · cases h

def isLists (es : List Item) (rt : Tree.Node) : Bool :=
  match rt.kids with
  | a :: _ => match a.kids with
    | _ :: b :: _ => match b.kids with
      | _ :: n :: ns => isEntries (n :: ns) es
      | _ => false
    | _ => false
  | _ => false

theorem isLists_sound (es : List Item) (rt : Tree.Node) (h : isLists es rt = true) : Lists rt es := by
  unfold isLists at h
  split at h
  · rename_i a _ h1
    split at h
    · rename_i _ b _ h2
      split at h
      · rename_i f n ns h3
        exact ⟨a, b, f, n :: ns, by rw [h1]; rfl, by rw [h2]; rfl, h3, by simp, isEntries_sound _ _ h⟩
      · cases h
    · cases h
  · cases h

theorem list_read : ∃ rt, Tree.parseText (shown (utf8Text (word list))) = .ok rt ∧ Lists rt es := by
  have : (match Tree.parseText (shown (utf8Text (word list))) with | .ok rt => isLists es rt | _ => false) = true := by decide +kernel
  revert this
  cases Tree.parseText (shown (utf8Text (word list))) with
  | ok n => intro h; exact ⟨n, rfl, isLists_sound _ _ h⟩
  | throw => intro h; cases h
  | ub => intro h; cases h

/-- The table PARAMS, with another record and a removed one before. -/
def fields : List Bytes := ["FileName", "Creation", "MODIFIED", "ATTRIBUTES", "DATASIZE", "BINARYDATA"].map Cli.asc
def value : Bytes := mark8 ++ utf8Text (word list)
def names : Rec := ⟨false, Cli.asc "dbnames", Cli.asc "205", .ok value⟩
def params : Tab := ⟨Cli.asc "PARAMS", fields, [⟨true, [], [], .throw⟩, ⟨false, Cli.asc "users.usr", Cli.asc "3", .ok [1, 2, 3]⟩, names, names]⟩

theorem params_fields : Fields FileFields params := by
  refine ⟨["FileName", "Creation", "MODIFIED", "ATTRIBUTES", "DATASIZE", "BINARYDATA"].map word, ?_, ?_, ?_⟩
  · unfold Name Scalar; decide
  · left; simp only [List.map, SameNames, fileFields, and_true]; decide
  · decide

def tables : List (List Nat) := [word "CONFIG", word "_REFERENCE5", word "_Reference5_vt6"]

theorem tested (i0 : Int) (ts : List (List Nat)) (ht : ∀ t ∈ ts, Ascii t) :
    ((∀ e ∈ es, e.Required → e.Present ts) → testTables z false i0 (some params) (ts.map utf8Text) = .ok true) ∧
    (¬ (∀ e ∈ es, e.Required → e.Present ts) → testTables z false i0 (some params) (ts.map utf8Text) = .throw) := by
  obtain ⟨rt, hp, hl⟩ := list_read
  refine tables_tested_partial z false i0 params params_fields [⟨true, [], [], .throw⟩, ⟨false, Cli.asc "users.usr", Cli.asc "3", .ok [1, 2, 3]⟩]
    [names] names (word "dbnames") rfl ?_ rfl (ascii_name (by unfold Ascii; decide)) (by decide) (by decide)
    value value rfl (by decide +kernel) rfl (word list) (by unfold Scalar; decide +kernel) (by decide +kernel) (.utf8 _) rt es (by decide +kernel) hp hl
    (by unfold Ascii; decide +kernel) ts ht
  intro r hr
  simp only [List.mem_cons, List.not_mem_nil, or_false] at hr
  rcases hr with rfl | rfl
  · exact Or.inl rfl
  · exact Or.inr ⟨word "users.usr", ascii_name (by unfold Ascii; decide), by decide, by decide⟩

/-- All the tables are there. -/
example (i0 : Int) : testTables z false i0 (some params) (tables.map utf8Text) = .ok true := by
  refine (tested i0 tables (by unfold Ascii; decide)).1 ?_
  intro e he hr
  simp only [es, List.mem_cons, List.not_mem_nil, or_false] at he
  rcases he with rfl | rfl | rfl | rfl
  · right
    exact ⟨by decide, word "_REFERENCE5", by decide, by decide⟩
  · left
    exact ⟨by decide, word "_Reference5_vt6", by decide, word "_Reference5", word "_vt6", by decide, by decide⟩
  · exact absurd hr.2 (by decide)
  · exact absurd rfl hr.1

/-- The part is missing. -/
example (i0 : Int) : testTables z false i0 (some params) ((tables.take 2).map utf8Text) = .throw := by
  refine (tested i0 (tables.take 2) (by unfold Ascii; decide)).2 ?_
  intro h
  rcases h ⟨word guid, word "VT", word "6"⟩ (by simp [es]) ⟨by decide, by decide⟩ with ⟨_, t, ht, p, q, e, hs⟩ | ⟨h, _⟩
  · have hl := sameText_length hs
    have hq : q = t.drop (t.length - 4) := by
      have : q.length = 4 := hl
      rw [e, List.length_append, this, Nat.add_sub_cancel, List.drop_left]
    simp only [tables, List.take, List.mem_cons, List.not_mem_nil, or_false] at ht
    rcases ht with rfl | rfl <;> rw [hq] at hs <;> exact absurd hs (by decide)
  · exact absurd h (by decide)

/-- The same list without the blank, as the platform writes it, is reported. -/
example : testNames (tables.map utf8Text) (utf8Text (word list).tail) = .throw := usual_list_reported _ _ (by decide +kernel)

/-- Wrong names of the fields are passed if the variable happens to be, say, 1000. -/
example : testTables z false 1000 (some { params with fields := List.replicate 6 (Cli.asc "NO") }) (tables.map utf8Text) =
    testTables z false 1000 (some params) (tables.map utf8Text) := fields_not_tested z false 1000 (by decide) params _ (by decide) _

/-- A size that is not the one of the value. -/
example (i0 : Int) (ts : List Bytes) : testTables z false i0 (some { params with recs := [{ names with size := Cli.asc "204" }] }) ts = .throw :=
  unreadable_list_reported z false i0 { params with recs := [{ names with size := Cli.asc "204" }] } params_fields [] [] { names with size := Cli.asc "204" } (word "dbnames") rfl (by simp) rfl
    (ascii_name (by unfold Ascii; decide)) (by decide) (by decide) ts
    (Or.inr ⟨value, rfl, Or.inr (Or.inl ⟨204, by decide +kernel, by decide +kernel⟩)⟩)

/-- A field with another name. -/
example (ts : List Bytes) : testTables z false 0 (some { params with fields := (List.replicate 6 "NO").map Cli.asc }) ts = .throw :=
  wrong_fields_reported z false _ (List.replicate 6 (word "NO")) (by unfold Name Scalar; decide) (by decide)
    (by rintro (h | h) <;> simp only [List.replicate, SameNames, fileFields, List.cons_append, List.nil_append] at h <;> exact absurd h.1 (by decide)) ts

end Verif.TableList.Example
