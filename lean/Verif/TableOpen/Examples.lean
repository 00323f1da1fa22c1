import Verif.TableOpen.Theorems
import Verif.TableOpen.Pages

/-! # Concrete tables (C91) -/

namespace Verif.TableOpen
open Verif Record Tree Spec

/-- An index file of two pages; index 1 begins on the second, index 2 has no pages. -/
def sampleIndex : Bytes :=
  ([0, 0, 0, 0, 0, 16, 0, 0, 0, 0, 0, 0] : Bytes) ++ List.replicate 4084 0 ++ ([0, 32, 0, 0, 20, 0, 0, 0] : Bytes) ++ List.replicate 4088 0

/-- Two records of 37 bytes. -/
def sampleData : Bytes := List.replicate 74 0

def sampleBase : Base :=
  ⟨4096, false, fun b => if b = 5 then .ok sampleData else if b = 9 then .ok sampleIndex else .throw⟩

def sampleD : TableD :=
  ⟨"_Reference7".toList,
   [("_IDRRef".toList, ⟨.binary, false, 16, 0, true⟩), ("_Version".toList, ⟨.version, false, 0, 0, true⟩),
    ("_Fld8".toList, ⟨.numeric, true, 5, 2, true⟩)],
   [⟨"ByID".toList, true, [("_idrref".toList, 16)]⟩, ⟨"ByNum".toList, false, [("_Fld8".toList, 4), ("_IDRREF".toList, 16)]⟩],
   true, 5, 0, 9⟩

def str (s : Str) : Node := .leaf .string s
def num (s : Str) : Node := .leaf .number s

def sampleNode : Node :=
  .list [str "_Reference7".toList, num ['0'],
    .list [str "Fields".toList, .list [str "_IDRRef".toList, str ['B'], num ['0'], num ['1', '6'], num ['0'], str ['C', 'S']],
      .list [str "_Version".toList, str ['R', 'V'], num ['0'], num ['0'], num ['0'], str ['C', 'S']], .list [str "_Fld8".toList, str ['N'], num ['1'], num ['5'], num ['2'], str ['C', 'S']]],
    .list [str "Indexes".toList, .list [str "ByID".toList, num ['1'], .list [str "_idrref".toList, num ['1', '6']]],
      .list [str "ByNum".toList, num ['0'], .list [str "_Fld8".toList, num ['4']], .list [str "_IDRREF".toList, num ['1', '6']]]],
    .list [str "Recordlock".toList, str ['1']], .list [str "Files".toList, num ['5'], num ['0'], num ['9']]]

def stoiIs (s : Str) (z : Int) : Bool :=
  match stoi s with
  | .ok x => decide (x = z)
  | _ => false

theorem num_is (s : Str) (z : Int) (h : stoiIs s z = true) : IsNum (num s) z := by
  refine ⟨rfl, (stoi_iff _ _).1 ?_⟩
  unfold stoiIs at h
  show stoi s = _
  split at h
  · rename_i x hx
    rw [hx, of_decide_eq_true h]
  · cases h

theorem node_fields : List.Forall₂ FieldNode
    [.list [str "_IDRRef".toList, str ['B'], num ['0'], num ['1', '6'], num ['0'], str ['C', 'S']],
      .list [str "_Version".toList, str ['R', 'V'], num ['0'], num ['0'], num ['0'], str ['C', 'S']],
      .list [str "_Fld8".toList, str ['N'], num ['1'], num ['5'], num ['2'], str ['C', 'S']]]
    [("_IDRRef".toList, ⟨.binary, false, 16, 0, true⟩), ("_Version".toList, ⟨.version, false, 0, 0, true⟩),
      ("_Fld8".toList, ⟨.numeric, true, 5, 2, true⟩)] := by
  have hb0 : IsBit (num ['0']) false := ⟨rfl, rfl⟩
  have hb1 : IsBit (num ['1']) true := ⟨rfl, rfl⟩
  refine .cons ?_ (.cons ?_ (.cons ?_ .nil))
  · exact ⟨_, _, _, _, _, _, ['B'], rfl, ⟨rfl, rfl⟩, rfl, ⟨rfl, rfl⟩, hb0, num_is _ _ (by decide +kernel), num_is _ _ (by decide +kernel), ⟨rfl, rfl⟩⟩
  · exact ⟨_, _, _, _, _, _, ['R', 'V'], rfl, ⟨rfl, rfl⟩, rfl, ⟨rfl, rfl⟩, hb0, num_is _ _ (by decide +kernel), num_is _ _ (by decide +kernel), ⟨rfl, rfl⟩⟩
  · exact ⟨_, _, _, _, _, _, ['N'], rfl, ⟨rfl, rfl⟩, rfl, ⟨rfl, rfl⟩, hb1, num_is _ _ (by decide +kernel), num_is _ _ (by decide +kernel), ⟨rfl, rfl⟩⟩

theorem node_indexes : List.Forall₂ IndexNode
    [.list [str "ByID".toList, num ['1'], .list [str "_idrref".toList, num ['1', '6']]],
      .list [str "ByNum".toList, num ['0'], .list [str "_Fld8".toList, num ['4']], .list [str "_IDRREF".toList, num ['1', '6']]]]
    [⟨"ByID".toList, true, [("_idrref".toList, 16)]⟩, ⟨"ByNum".toList, false, [("_Fld8".toList, 4), ("_IDRREF".toList, 16)]⟩] := by
  have hb0 : IsBit (num ['0']) false := ⟨rfl, rfl⟩
  have hb1 : IsBit (num ['1']) true := ⟨rfl, rfl⟩
  refine .cons ?_ (.cons ?_ .nil)
  · exact ⟨rfl, by simp, _, _, _, rfl, ⟨rfl, rfl⟩, hb1, .cons ⟨_, _, rfl, ⟨rfl, rfl⟩, num_is _ _ (by decide +kernel)⟩ .nil⟩
  · exact ⟨rfl, by simp, _, _, _, rfl, ⟨rfl, rfl⟩, hb0, .cons ⟨_, _, rfl, ⟨rfl, rfl⟩, num_is _ _ (by decide +kernel)⟩
      (.cons ⟨_, _, rfl, ⟨rfl, rfl⟩, num_is _ _ (by decide +kernel)⟩ .nil)⟩

theorem sample_node : TableNode sampleNode sampleD :=
  ⟨_, _, _, _, _, _, rfl, ⟨rfl, rfl⟩, ⟨rfl, List.cons_ne_nil _ _, _, _, rfl, ⟨rfl, rfl⟩, node_fields⟩,
    ⟨rfl, _, _, rfl, fun _ => ⟨rfl, rfl⟩, node_indexes⟩,
    ⟨_, _, rfl, ⟨rfl, rfl⟩, ⟨rfl, rfl⟩⟩, ⟨_, _, _, _, rfl, ⟨rfl, rfl⟩, num_is _ _ (by decide +kernel), num_is _ _ (by decide +kernel),
      num_is _ _ (by decide +kernel)⟩⟩

theorem sample_noNul : NoNul sampleD := by
  refine ⟨by decide +kernel, by decide +kernel, by decide +kernel⟩

theorem sample_sane : Sane sampleD := by
  refine ⟨?_, by decide +kernel⟩
  refine List.forall_mem_cons.2 ⟨⟨by decide, by decide⟩, List.forall_mem_cons.2 ⟨⟨by decide, by decide⟩, List.forall_mem_cons.2 ⟨⟨by decide, by decide⟩, ?_⟩⟩⟩
  exact fun _ h => absurd h List.not_mem_nil

theorem sample_pages : PageSizeOk sampleBase := ⟨by decide, fun _ => rfl⟩

/-- What is checked of the opened table. -/
def looksLike (fs : List (Int × Bool)) (is : List (List (Nat × Int) × Nat × Nat × Nat)) (len : Int) (phys : Nat) : Outcome Table → Bool
  | .ok t => decide (t.issystem = false) && decide (t.fields.map (fun f => (f.field.offset, f.isGuid)) = fs) &&
      decide (t.indexes.map (fun x => (x.fields, x.start, x.rootblock, x.length)) = is) && decide (t.recordlen = len) && decide (t.phys = phys)
  | _ => false

theorem sample_looks : looksLike [(17, true), (1, false), (33, false)] [([(0, 16)], 4096, 8192, 20), ([(2, 4), (0, 16)], 0, 0, 0)] 37 2
    (initTree sampleBase (.list [sampleNode])) = true := by decide +kernel

/-- The hypotheses of `open_table` and `opened_acceptable` are met by the sample. -/
theorem sample_acceptable : Acceptable sampleBase sampleD := by
  have h := sample_looks
  cases hi : initTree sampleBase (.list [sampleNode]) with
  | throw => rw [hi] at h; cases h
  | ub => rw [hi] at h; cases h
  | ok t => exact opened_acceptable sampleBase sample_pages _ _ _ rfl sample_node sample_noNul sample_sane t hi

example : ∃ t, initTree sampleBase (.list [sampleNode]) = .ok t ∧ Opened sampleBase sampleD t :=
  open_table sampleBase sample_pages _ _ _ rfl sample_node sample_noNul sample_sane sample_acceptable

/-- The text of the description opens as well. -/
theorem sample_wellFormed : Tree.Spec.WellFormed sampleNode := by
  have hs : ∀ s, Tree.Spec.WellFormed (str s) := fun s => .string s
  have hn : ∀ s : Str, s ≠ [] → '\x00' ∉ s → (∀ c, s.head? = some c → c ∉ [' ', '\t', '\r', '\n']) → classify s = .number →
      Tree.Spec.WellFormed (num s) := fun s h1 h2 h3 h4 => .token ⟨h1, h2, h3, by decide, h4⟩
  have n1 : ∀ c ∈ ['0', '1', '2', '4', '5', '9'], Tree.Spec.WellFormed (num [c]) := by
    intro c hc
    simp only [List.mem_cons, List.not_mem_nil, or_false] at hc
    rcases hc with rfl | rfl | rfl | rfl | rfl | rfl <;> exact hn _ (by decide) (by decide) (by intro c hc; cases hc; decide) (by rfl)
  have n2 : Tree.Spec.WellFormed (num ['1', '6']) := hn _ (by decide) (by decide) (by intro c hc; cases hc; decide) (by rfl)
  have hl : ∀ a b l, (∀ n ∈ a :: b :: l, Tree.Spec.WellFormed n) → Tree.Spec.WellFormed (.list (a :: b :: l)) := by
    intro a b l h
    refine .list h ?_
    unfold Tree.Spec.NoBare
    split
    · rename_i e; simp at e
    · trivial
  have h0 := n1 '0' (by simp)
  have h1 := n1 '1' (by simp)
  have h2 := n1 '2' (by simp)
  have h4 := n1 '4' (by simp)
  have h5 := n1 '5' (by simp)
  have h9 := n1 '9' (by simp)
  unfold sampleNode
  repeat' first
    | exact hs _
    | assumption
    | refine hl _ _ _ ?_
    | refine List.forall_mem_cons.2 ⟨?_, ?_⟩
    | exact fun _ h => absurd h List.not_mem_nil

example : ∃ t, init sampleBase (outtext (.list [sampleNode])) = .ok (some t) ∧ Opened sampleBase sampleD t :=
  open_text sampleBase sample_pages _ _ sample_wellFormed sample_node sample_noNul sample_sane sample_acceptable

/-! ## Where opening goes wrong -/

/-- Two fields of 2147483647 bytes: the length of a record overflows. -/
def hugeNode : Node :=
  .list [str ['T'], num ['0'],
    .list [str "Fields".toList, .list [str ['A'], str ['B'], num ['0'], num "2147483647".toList, num ['0'], str ['C', 'S']],
      .list [str ['C'], str ['B'], num ['0'], num "2147483647".toList, num ['0'], str ['C', 'S']]],
    .list [str "Indexes".toList], .list [str "Recordlock".toList, str ['0']], .list [str "Files".toList, num ['5'], num ['0'], num ['0']]]

/-- **C91 fails** for lengths that do not fit: what happens is undefined, the table is not refused. -/
theorem huge_undefined : initTree sampleBase (.list [hugeNode]) = .ub := by
  have : (match initTree sampleBase (.list [hugeNode]) with | .ub => true | _ => false) = true := by decide +kernel
  split at this
  · assumption
  · cases this

/-- The first free page of an index file is checked in 32 bits: page 524288 of 8192 bytes, 4 GB behind the start, passes for a file of
one page. -/
theorem far_free_page_passes : ∃ (base : Base) (f : Bytes), PageSizeOk base ∧ IndexFileOk base 1 f ∧
    ∃ w, Object.Spec.word f 0 = some w ∧ f.length < w * base.pageSize := by
  let f : Bytes := ([0, 0, 8, 0, 0, 0, 0, 0] : Bytes) ++ List.replicate 8184 0
  have hl : f.length = 8192 := by rw [List.length_append, List.length_replicate]; rfl
  have w0 : Object.Spec.word f 0 = some 524288 := by rfl
  have w1 : Object.Spec.word f 4 = some 0 := by rfl
  refine ⟨⟨8192, true, fun _ => .throw⟩, f, ⟨by decide, by simp⟩, ⟨by omega, ⟨1, by simpa using hl⟩, by omega, ⟨_, w0, ?_⟩, ?_⟩, _, w0, ?_⟩
  · rw [hl]; decide
  · intro k hk
    have : k = 0 := by omega
    subst this
    refine ⟨0, ?_, by omega, by simp⟩
    rw [Spec.startOf, show 4 * (0 + 1) = 4 from rfl, w1]
    rfl
  · rw [hl]; decide

/-- A field named `Имя` cannot be in a table that is opened. -/
example : ¬ WholeTail 3 "Имя".toList := by
  rw [show "Имя".toList = ['И'] ++ ['м', 'я'] by decide +kernel]
  exact not_whole (by decide) (by decide)

/-- The sample files of C20 and C21 meet the hypotheses of `get_data_80` and `get_data_838`. -/
example : Object.getPart Object.sample80 4096 Object.sampleObj80 1 2 = Blob.getData [7, 8, 9] 1 2 :=
  get_data_80 Object.sample80 4096 2 Object.sampleObj80 (by decide) (by decide) [7, 8, 9] rfl (by unfold Object.Spec.Holds; decide) 1 2
    (by decide) (by decide)

example : Object.getPart Object.sample838 32 Object.sampleObj838 30 4 = Blob.getData (List.replicate 32 6 ++ List.replicate 8 5) 30 4 :=
  get_data_838 Object.sample838 32 2 Object.sampleObj838 (by decide) (by decide) (by decide) (by decide) (by decide) _ rfl (by decide)
    (by unfold Object.Spec.Holds; decide) 30 4 (by decide) (by decide)

end Verif.TableOpen
