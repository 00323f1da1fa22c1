import Verif.Record.Lemmas
import Mathlib.Data.List.Forall2

/-! # Property theorems: layout of records (C33) -/

namespace Verif.Record
open Verif

/-- **C33 (without the hidden field).** For every list of field declarations with lengths
that are not negative, offsets are computed such that, taking row versions first and the
other fields in order, each field starts where the one before ends, the first one behind
the removal mark; names and types stay; the record ends with the last field but is never
shorter than five bytes. -/
theorem layout_partition_partial (fs : List Field) (hs : ∀ f ∈ fs, Spec.Sane f.decl) (hb : 1 + Spec.total fs < 2147483648) :
    ∃ gs : List Field, layout fs.length fs = .ok (gs, ((max 5 (1 + Spec.total fs) : Nat) : Int)) ∧
      gs.map (fun f => (f.name, f.decl)) = fs.map (fun f => (f.name, f.decl)) ∧
      Spec.Tiles 1 (Spec.inOrder gs) (1 + Spec.total fs) := by
  have := layout_ok fs [] hs hb
  simpa using this

theorem perm_inOrder (fs : List Field) : (Spec.inOrder fs).Perm fs := by
  rw [inOrder_eq]
  exact List.filter_append_perm _ _

/-- **C33, read off the offsets.** No two fields share a byte, every field lies inside the
record behind the removal mark, and every byte between belongs to a field. -/
theorem layout_disjoint_partial (fs gs : List Field) (len : Int) (hs : ∀ f ∈ fs, Spec.Sane f.decl)
    (hb : 1 + Spec.total fs < 2147483648) (h : layout fs.length fs = .ok (gs, len)) :
    gs.Pairwise Spec.Apart ∧ 5 ≤ len ∧ (∀ f ∈ gs, 1 ≤ f.offset ∧ f.offset + Spec.fieldBytes f.decl ≤ len) ∧
    ∀ k : Nat, 1 ≤ k → k < 1 + Spec.total fs → ∃ f ∈ gs, f.offset ≤ k ∧ (k : Int) < f.offset + Spec.fieldBytes f.decl := by
  obtain ⟨gs', h1, h2, h3⟩ := layout_partition_partial fs hs hb
  rw [h1] at h
  simp only [Outcome.ok.injEq, Prod.mk.injEq] at h
  obtain ⟨rfl, rfl⟩ := h
  have hp := perm_inOrder gs'
  refine ⟨?_, by omega, ?_, ?_⟩
  · exact (hp.pairwise_iff (fun {x y} h => apart_symm h)).mp (tiles_apart h3)
  · intro f hf
    have := (tiles_bounds h3).2 f (hp.mem_iff.mpr hf)
    omega
  · intro k hk1 hk2
    obtain ⟨f, hf, hh⟩ := tiles_cover h3 k hk1 hk2
    exact ⟨f, hp.mem_iff.mp hf, hh⟩

def sampleFields : List Field :=
  [⟨[70], ⟨.numeric, true, 5, 2, false⟩, 0⟩, ⟨[86], ⟨.version, false, 0, 0, false⟩, 0⟩, ⟨[78], ⟨.varchar, false, 3, 0, true⟩, 0⟩]

example : layout 3 sampleFields = .ok
    ([⟨[70], ⟨.numeric, true, 5, 2, false⟩, 17⟩, ⟨[86], ⟨.version, false, 0, 0, false⟩, 1⟩, ⟨[78], ⟨.varchar, false, 3, 0, true⟩, 21⟩], 29) := by
  decide

example : (∀ f ∈ sampleFields, Spec.Sane f.decl) ∧ 1 + Spec.total sampleFields = 29 := by
  constructor
  · intro f hf
    simp [sampleFields] at hf
    rcases hf with rfl | rfl | rfl <;> (constructor <;> decide)
  · decide

/-! ## From the description -/

theorem digitsVal_of (s : Str) : ∀ a, (∀ c ∈ s, '0' ≤ c ∧ c ≤ '9') →
    digitsVal a s = s.foldl (fun a c => a * 10 + (c.toNat - 48)) a := by
  induction s with
  | nil => intro a _; rfl
  | cons c s ih =>
    intro a h
    have hc : Tree.isDigit c = true := by
      unfold Tree.isDigit; exact decide_eq_true (h c (List.mem_cons_self ..))
    rw [digitsVal, if_pos hc, ih _ (fun x hx => h x (List.mem_cons_of_mem _ hx)), List.foldl_cons]
    rfl

theorem stoi_numeral {s : Str} {n : Nat} (h : Spec.Numeral s n) (hb : n < 2147483648) : stoi s = .ok (n : Int) := by
  obtain ⟨h1, h2, h3⟩ := h
  cases s with
  | nil => exact absurd rfl h1
  | cons c s =>
    have hc : c ≠ '-' := by
      intro e; subst e
      have := (h2 '-' (List.mem_cons_self ..)).1
      revert this; decide
    have hd : Tree.isDigit c = true := by
      unfold Tree.isDigit; exact decide_eq_true (h2 c (List.mem_cons_self ..))
    have hm : splitSign (c :: s) = (false, c :: s) := by
      unfold splitSign
      split
      · rename_i e; simp at e; exact absurd e.1 hc
      · rfl
    unfold stoi
    rw [hm]
    simp only [List.head?_cons, Option.map_some, Option.getD_some, hd, Bool.true_eq_false, if_false, Bool.false_eq_true]
    rw [digitsVal_of _ _ h2, h3]
    rw [if_pos ⟨by omega, by omega⟩]

theorem typeOf_name {t : FType} {s : Str} (h : Spec.typeName t = some s) : typeOf s = some t := by
  cases t <;> simp [Spec.typeName] at h <;> subst h <;> rfl

theorem fieldFromTree_ok {n : Tree.Node} {name : Str} {d : Decl} (h : Spec.Describes n name d) (hv : Bool) :
    fieldFromTree n.kids hv = .ok (⟨utf8Of name, d, 0⟩, hv || decide (d.type = .version)) := by
  obtain ⟨ty, len, prec, h1, h2, h3, h4, h5, h6, h7, h8⟩ := h
  have hl : stoi len = .ok d.length := by
    rw [stoi_numeral h6 (by omega), Int.toNat_of_nonneg h2]
  have hp : stoi prec = .ok d.precision := by
    rw [stoi_numeral h7 (by omega), Int.toNat_of_nonneg h4]
  have hn : oneOf ['1'] ['0'] (if d.nullExists then ['1'] else ['0']) = .ok d.nullExists := by
    cases d.nullExists <;> rfl
  have hc : oneOf ['C', 'S'] ['C', 'I'] (if d.caseSensitive then ['C', 'S'] else ['C', 'I']) = .ok d.caseSensitive := by
    cases d.caseSensitive <;> rfl
  rw [h8]
  simp only [fieldFromTree, parseDecl, want, Tree.Node.type, Tree.Node.value, if_true, Outcome.ok_bind, typeOf_name h1, hl, hp,
    hn, hc]

theorem fieldsFromTree_ok (ns : List Tree.Node) : ∀ (ds : List (Str × Decl)) (hv : Bool),
    List.Forall₂ (fun n d => Spec.Describes n d.1 d.2) ns ds →
    fieldsFromTree ns hv = .ok (ds.map (fun d => ⟨utf8Of d.1, d.2, 0⟩), hv || ds.any (fun d => decide (d.2.type = .version))) := by
  induction ns with
  | nil => intro ds hv h; cases h; simp [fieldsFromTree]
  | cons n ns ih =>
    intro ds hv h
    cases h with
    | cons h1 h2 =>
      rename_i d ds
      have hk : n.kids.length = 6 := by
        obtain ⟨ty, len, prec, _, _, _, _, _, _, _, e⟩ := h1
        rw [e]; rfl
      rw [fieldsFromTree, if_neg (by omega), fieldFromTree_ok h1]
      simp only [Outcome.ok_bind]
      rw [ih _ _ h2]
      simp [Bool.or_assoc]

/-- The fields a list of descriptions stands for. -/
def Spec.fieldsOf (ds : List (Str × Decl)) : List Field := ds.map (fun d => ⟨utf8Of d.1, d.2, 0⟩)

/-- **C33, from the description of the table.** A table that has a row version field or no
record locks gets exactly the described fields, laid out as above. -/
theorem table_layout_partial (ns : List Tree.Node) (ds : List (Str × Decl)) (recordlock : Bool)
    (hd : List.Forall₂ (fun n d => Spec.Describes n d.1 d.2) ns ds)
    (hv : recordlock = true → ∃ d ∈ ds, d.2.type = .version)
    (hs : ∀ d ∈ ds, Spec.Sane d.2) (hb : 1 + Spec.total (Spec.fieldsOf ds) < 2147483648) :
    ∃ gs : List Field, initFields recordlock ns = .ok (gs, ((max 5 (1 + Spec.total (Spec.fieldsOf ds)) : Nat) : Int)) ∧
      gs.map (fun f => (f.name, f.decl)) = ds.map (fun d => (utf8Of d.1, d.2)) ∧
      Spec.Tiles 1 (Spec.inOrder gs) (1 + Spec.total (Spec.fieldsOf ds)) := by
  have hl : ns.length = (Spec.fieldsOf ds).length := by
    rw [Spec.fieldsOf, List.length_map]; exact hd.length_eq
  have hw : withHidden recordlock (ds.any (fun d => decide (d.2.type = .version))) (Spec.fieldsOf ds) = Spec.fieldsOf ds := by
    unfold withHidden
    cases recordlock with
    | false => rfl
    | true =>
      obtain ⟨d, h1, h2⟩ := hv rfl
      have : ds.any (fun d => decide (d.2.type = .version)) = true := List.any_eq_true.mpr ⟨d, h1, by simp [h2]⟩
      rw [this]; rfl
  obtain ⟨gs, e1, e2, e3⟩ := layout_partition_partial (Spec.fieldsOf ds) (by
    intro f hf
    obtain ⟨d, hd, rfl⟩ := List.mem_map.mp hf
    exact hs d hd) hb
  refine ⟨gs, ?_, ?_, e3⟩
  · unfold initFields
    rw [fieldsFromTree_ok ns ds false hd]
    simp only [Outcome.ok_bind, Bool.false_or]
    rw [show ds.map (fun d => (⟨utf8Of d.1, d.2, 0⟩ : Field)) = Spec.fieldsOf ds from rfl, hw, hl, e1]
  · rw [e2, Spec.fieldsOf, List.map_map]; rfl

/-- **C33, counterexample in general.** A table with record locks and no row version field
is given a hidden field `VERSION`. It gets no place: its offset is 0, where the removal
mark is, and the record is exactly as long as without it. -/
theorem hidden_version_has_no_place (ns : List Tree.Node) (ds : List (Str × Decl))
    (hd : List.Forall₂ (fun n d => Spec.Describes n d.1 d.2) ns ds)
    (hv : ∀ d ∈ ds, d.2.type ≠ .version)
    (hs : ∀ d ∈ ds, Spec.Sane d.2) (hb : 1 + Spec.total (Spec.fieldsOf ds) < 2147483648) :
    ∃ gs : List Field, initFields true ns = .ok (gs ++ [hiddenField], ((max 5 (1 + Spec.total (Spec.fieldsOf ds)) : Nat) : Int)) ∧
      hiddenField.offset = 0 ∧ Spec.fieldBytes hiddenField.decl = 8 ∧ gs.length = ds.length ∧
      Spec.Tiles 1 (Spec.inOrder gs) (1 + Spec.total (Spec.fieldsOf ds)) := by
  have hl : ns.length = (Spec.fieldsOf ds).length := by
    rw [Spec.fieldsOf, List.length_map]; exact hd.length_eq
  have hw : withHidden true (ds.any (fun d => decide (d.2.type = .version))) (Spec.fieldsOf ds) = Spec.fieldsOf ds ++ [hiddenField] := by
    have : ds.any (fun d => decide (d.2.type = .version)) = false := by
      rw [List.any_eq_false]; intro d h; simp [hv d h]
    unfold withHidden
    rw [this]; rfl
  obtain ⟨gs, e1, e2, e3⟩ := layout_ok (Spec.fieldsOf ds) [hiddenField] (by
    intro f hf
    obtain ⟨d, hd, rfl⟩ := List.mem_map.mp hf
    exact hs d hd) hb
  refine ⟨gs, ?_, rfl, rfl, ?_, e3⟩
  · unfold initFields
    rw [fieldsFromTree_ok ns ds false hd]
    simp only [Outcome.ok_bind, Bool.false_or]
    rw [show ds.map (fun d => (⟨utf8Of d.1, d.2, 0⟩ : Field)) = Spec.fieldsOf ds from rfl, hw, hl, e1]
  · have := congrArg List.length e2
    simpa [Spec.fieldsOf] using this

/-- Non-vacuity: the description `{"ID","B",0,16,0,"CS"}` of a table with record locks. -/
def idNode : Tree.Node := .list [.leaf .string ['I', 'D'], .leaf .string ['B'], .leaf .number ['0'], .leaf .number ['1', '6'],
  .leaf .number ['0'], .leaf .string ['C', 'S']]

example : Spec.Describes idNode ['I', 'D'] ⟨.binary, false, 16, 0, true⟩ := by
  refine ⟨['B'], ['1', '6'], ['0'], rfl, by decide, by decide, by decide, by decide, ?_, ?_, rfl⟩ <;>
    (unfold Spec.Numeral; decide)

example : initFields false [idNode] = .ok ([⟨[73, 68], ⟨.binary, false, 16, 0, true⟩, 1⟩], 17) := by decide +kernel
example : initFields true [idNode] = .ok ([⟨[73, 68], ⟨.binary, false, 16, 0, true⟩, 1⟩, hiddenField], 17) := by decide +kernel

/-- **C33, counterexample.** A negative length is accepted and makes fields overlap the
removal mark (the description has -4 for the length of a binary field). -/
theorem negative_length_overlaps :
    layout 2 [⟨[65], ⟨.binary, false, -4, 0, true⟩, 0⟩, ⟨[66], ⟨.bool, false, 0, 0, true⟩, 0⟩] =
      .ok ([⟨[65], ⟨.binary, false, -4, 0, true⟩, 1⟩, ⟨[66], ⟨.bool, false, 0, 0, true⟩, -3⟩], 5) ∧
    stoi ['-', '4'] = .ok (-4) := by
  decide

/-- A record of one small field still has five bytes, enough for the removal mark and the
number of the next free record. -/
theorem record_at_least_five (num : Nat) (fs gs : List Field) (len : Int) (h : layout num fs = .ok (gs, len)) : 5 ≤ len := by
  unfold layout at h
  cases h1 : place isVersion num fs 1 with
  | throw => rw [h1] at h; simp at h
  | ub => rw [h1] at h; simp at h
  | ok p =>
    rw [h1] at h
    simp only [Outcome.ok_bind] at h
    cases h2 : place (fun f => !isVersion f) num p.1 p.2 with
    | throw => rw [h2] at h; simp at h
    | ub => rw [h2] at h; simp at h
    | ok q =>
      rw [h2] at h
      simp only [Outcome.ok_bind, Outcome.ok.injEq, Prod.mk.injEq] at h
      rw [← h.2]
      split <;> omega

example : layout 1 [⟨[66], ⟨.bool, false, 0, 0, true⟩, 0⟩] = .ok ([⟨[66], ⟨.bool, false, 0, 0, true⟩, 1⟩], 5) := by decide

end Verif.Record
