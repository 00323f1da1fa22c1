import Verif.Index.Dump
import Verif.Index.DumpSpec
import Verif.Index.TreeTheorems

/-! # Property theorems: an index as text (C105) -/

namespace Verif.Index
open Verif Blob

/-! ## Lines -/

theorem hexDigit_spec : ∀ n, n < 16 → hexDigit n = UInt8.ofNat (Spec.digits.getD n '?').toNat := by decide

theorem hexByte_spec (b : UInt8) : hexByte b = Spec.chars (Spec.hex2 b ++ [' ']) := by
  have := b.toNat_lt
  unfold hexByte Spec.chars Spec.hex2
  rw [hexDigit_spec _ (by omega), hexDigit_spec _ (by omega)]
  rfl

theorem entry_text (level : Nat) (e : Entry) : entryLine "  -" level e.key e.num = (Spec.Item.entry level e).text := by
  unfold entryLine Spec.Item.text
  rw [show hexByte = (fun b => Spec.chars (Spec.hex2 b ++ [' '])) from funext hexByte_spec]
  rfl

theorem ref_text (level : Nat) (e : Entry) : entryLine "  +" level e.key e.num = (Spec.Item.ref level e).text := by
  unfold entryLine Spec.Item.text
  rw [show hexByte = (fun b => Spec.chars (Spec.hex2 b ++ [' '])) from funext hexByte_spec]
  rfl

/-! ## Leaves -/

theorem bind_ok2 {α β : Type} {x : Outcome α} {k : α → Outcome β} {r : β} (h : (x >>= k) = .ok r) :
    ∃ a, x = .ok a ∧ k a = .ok r := by
  cases x with
  | ok a => exact ⟨a, rfl, h⟩
  | throw => cases h
  | ub => cases h

/-- The buffer holds the key before (zeros at first), and its end is known to be zeros. -/
structure Holds (len : Nat) (prev : Option Bytes) (cur : Bytes) (pr : Nat) : Prop where
  size : cur.length = len
  le : pr ≤ len
  tail : cur.drop (len - pr) = List.replicate pr 0
  same : prev = none ∨ prev = some cur

theorem dumpLoop_unpack (len level : Nat) (h : Hdr) (page : Bytes) : ∀ (n rpos ipos : Nat) (prev : Option Bytes) (cur : Bytes) (pr : Nat)
    (es : List Entry), Holds len prev cur pr → ipos ≤ page.length → unpackLoop len h page n rpos ipos prev = .ok es →
    dumpLoop len level h page n rpos ipos cur pr = .ok (es.flatMap (fun e => (Spec.Item.entry level e).text)) := by
  intro n
  induction n with
  | zero =>
    intro rpos ipos prev cur pr es _ _ hu
    unfold unpackLoop at hu
    cases hu
    rfl
  | succ n ih =>
    intro rpos ipos prev cur pr es hc hip hu
    unfold unpackLoop at hu
    unfold dumpLoop
    obtain ⟨w, h1, h2⟩ := bind_ok2 hu
    rw [h1]
    simp only [Outcome.ok_bind]
    dsimp only at h2
    generalize hl : sar w h.nb &&& h.lm = left at h2 ⊢
    generalize hr : sar (sar w h.nb) h.lb &&& h.rm = right at h2 ⊢
    split at h2
    · cases h2
    rename_i k1
    rw [if_neg k1]
    split at h2
    · cases h2
    rename_i k2
    rw [if_neg k2]
    split at h2
    · cases h2
    rename_i k3
    split at h2
    · cases h2
    rename_i k4
    rw [if_neg k4]
    obtain ⟨r, h3, h4⟩ := bind_ok2 h2
    cases h4
    generalize hj : len - left - right = j at *
    have hchunk : ((page.drop (ipos - j)).take j).length = j := by
      rw [List.length_take, List.length_drop]; omega
    generalize hch : (page.drop (ipos - j)).take j = chunk at *
    have hpre : cur.take left = (prev.getD []).take left := by
      rcases hc.same with e | e
      · subst e
        have : left = 0 := by
          rcases Nat.eq_zero_or_pos left with e | e
          · exact e
          · exact absurd ⟨by omega, rfl⟩ k3
        rw [this]; rfl
      · subst e; rfl
    have hkey : clear len right pr (cur.take left ++ chunk ++ cur.drop (len - right)) =
        (prev.getD []).take left ++ chunk ++ List.replicate right 0 := by
      rw [← hpre]
      have hlen : (cur.take left ++ chunk).length = len - right := by
        rw [List.length_append, List.length_take, hc.size, hchunk]; omega
      unfold clear
      split
      · rename_i hgt
        rw [List.take_left' hlen]
        have hd : (cur.take left ++ chunk ++ cur.drop (len - right)).drop (len - right + (right - pr)) = List.replicate pr 0 := by
          rw [← List.drop_drop, List.drop_left' hlen, List.drop_drop, show len - right + (right - pr) = len - pr by omega, hc.tail]
        rw [hd, List.append_assoc (cur.take left ++ chunk), List.replicate_append_replicate, show right - pr + pr = right by omega]
      · rename_i hle
        congr 1
        have : cur.drop (len - right) = (cur.drop (len - pr)).drop (pr - right) := by
          rw [List.drop_drop, show len - pr + (pr - right) = len - right by have := hc.le; omega]
        rw [this, hc.tail, List.drop_replicate, show pr - (pr - right) = right by omega]
    rw [hkey]
    have hsz : ((prev.getD []).take left ++ chunk ++ List.replicate right 0).length = len := by
      rw [← hpre]
      simp only [List.length_append, List.length_take, hc.size, hchunk, List.length_replicate]; omega
    rw [ih _ _ _ _ right r ⟨hsz, by omega, ?_, .inr rfl⟩ (by omega) h3]
    · simp only [Outcome.ok_bind, List.flatMap_cons]
      rw [← entry_text]
    · rw [List.drop_left']
      rw [← hpre]
      simp only [List.length_append, List.length_take, hc.size, hchunk]; omega

/-- **C105.** Whatever is in a page: if it can be unpacked, the text written for it shows the entries
unpacked, in their order, one line for each. -/
theorem leaf_text (b : Base) (len level block : Nat) (page : Bytes) (es : List Entry) (n : Nat) (h0 : 0 < len)
    (hu : unpack len page = .ok es) (hn : rd page 2 2 = .ok n) (hn0 : 0 < n) :
    ∃ free rec left right bytes, dumpLeaf b len level block page n =
      .ok ((Spec.Item.leaf level (blockNo b block) n free rec left right bytes).text ++
        es.flatMap (fun e => (Spec.Item.entry level e).text)) := by
  unfold unpack at hu
  rw [if_neg (by omega)] at hu
  obtain ⟨flags, _, hu⟩ := bind_ok2 hu
  split at hu
  · cases hu
  obtain ⟨n', e1, hu⟩ := bind_ok2 hu
  rw [hn] at e1
  cases e1
  rw [if_neg (by omega)] at hu
  obtain ⟨nm, g1, hu⟩ := bind_ok2 hu
  obtain ⟨lm, g2, hu⟩ := bind_ok2 hu
  obtain ⟨rm, g3, hu⟩ := bind_ok2 hu
  obtain ⟨nb, g4, hu⟩ := bind_ok2 hu
  obtain ⟨lb, g5, hu⟩ := bind_ok2 hu
  obtain ⟨rb, g6, hu⟩ := bind_ok2 hu
  have hlen : 30 ≤ page.length := by
    unfold rd at g6
    split at g6
    · assumption
    · cases g6
  have some_rd : ∀ off, off + 2 ≤ 30 → ∃ x, rd page off 2 = .ok x := by
    intro off ho
    exact ⟨_, if_pos (by omega)⟩
  obtain ⟨free, g7⟩ := some_rd 12 (by omega)
  obtain ⟨rtb, g8⟩ := some_rd 26 (by omega)
  have hd := dumpLoop_unpack len level ⟨nm, lm, rm, nb, lb, rb⟩ page n 30 page.length none (List.replicate len 0) len es
    ⟨List.length_replicate, Nat.le_refl _, by rw [Nat.sub_self]; rfl, .inl rfl⟩ (Nat.le_refl _) hu
  refine ⟨free, nb, lb, rtb, rb, ?_⟩
  unfold dumpLeaf
  rw [g7, g1, g2, g3, g4, g5, g8, g6]
  simp only [Outcome.ok_bind]
  rw [hd]
  simp only [Outcome.ok_bind]
  rfl

/-! ## Branches -/

/-- The text of some lines. -/
def textOf (d : List Spec.Item) : Bytes := d.flatMap Spec.Item.text

theorem textOf_append (d d' : List Spec.Item) : textOf (d ++ d') = textOf d ++ textOf d' := List.flatMap_append

/-- The lines of the pages below, each followed by the line of its entry. -/
def weave (level : Nat) : List (List Spec.Item) → List Spec.Ref → List Spec.Item
  | d :: ds, r :: rs => d ++ .ref level r.1 :: weave level ds rs
  | _, _ => []

theorem dumpRefs_weave {c : Conf} {b : Base} (hv : b.v838 = c.v838) (hp : b.pagesize = c.P.pagesize) (level : Nat) (page : Bytes)
    (sub : Nat → Outcome (Option Bytes)) {E : List Spec.Ref} {ds : List (List Spec.Item)}
    (h : List.Forall₂ (fun (r : Spec.Ref) d => sub (r.2 * c.P.pagesize) = .ok (some (textOf d))) E ds)
    (hE : Refs c E) (hl : ∀ r ∈ E, Spec.linkTo c (some r.2) < 2 ^ 32) (pre rest : Bytes)
    (hpage : page = pre ++ (E.flatMap (Spec.refBytes c) ++ rest)) :
    dumpRefs b c.P.len level page sub E.length pre.length = .ok (some (textOf (weave level ds E))) := by
  induction h generalizing pre with
  | nil => rfl
  | @cons r d E ds h1 _ ih =>
    obtain ⟨hr, hE'⟩ := refs_cons.mp hE
    have hpk : peek page pre.length c.P.len = .ok r.1.key := by
      rw [hpage, List.flatMap_cons, Spec.refBytes, List.append_assoc, List.append_assoc]
      exact peek_append rfl hr.1
    have hnum : rdBe page ((pre.length + c.P.len : Nat) : Int) = .ok r.1.num := by
      refine rdBe_at ⟨pre ++ r.1.key, (le 4 (Spec.linkTo c (some r.2))).reverse ++ (E.flatMap (Spec.refBytes c) ++ rest), ?_, ?_, hr.2⟩
      · rw [hpage, List.flatMap_cons, Spec.refBytes]; simp only [List.append_assoc]
      · rw [List.length_append, hr.1]
    have hch : rdBe page ((pre.length + c.P.len + 4 : Nat) : Int) = .ok (Spec.linkTo c (some r.2)) := by
      refine rdBe_at ⟨pre ++ r.1.key ++ (le 4 r.1.num).reverse, E.flatMap (Spec.refBytes c) ++ rest, ?_, ?_, hl r (List.mem_cons_self ..)⟩
      · rw [hpage, List.flatMap_cons, Spec.refBytes]; simp only [List.append_assoc]
      · simp only [List.length_append, hr.1, List.length_reverse, le_length]
    have hoff : b.offset (Spec.linkTo c (some r.2)) = r.2 * c.P.pagesize := by
      rw [← child_link c r.2]
      unfold Base.offset Conf.child
      rw [hv, hp]
    have hrec := ih hE' (fun q hq => hl q (List.mem_cons_of_mem _ hq)) (pre ++ Spec.refBytes c r)
      (by rw [hpage, List.flatMap_cons]; simp only [List.append_assoc])
    rw [List.length_append, refBytes_length hr.1, Conf.step, ← Nat.add_assoc] at hrec
    rw [List.length_cons]
    unfold dumpRefs
    rw [hpk, hnum, hch]
    simp only [Outcome.ok_bind]
    rw [hoff, h1]
    simp only [Outcome.ok_bind]
    rw [hrec]
    simp only [Outcome.ok_bind]
    rw [ref_text, weave, textOf_append]
    rfl

/-! ## Rows -/

/-- From some depth of recursion on, the page is written as these lines. -/
def Shown (c : Conf) (b : Base) (level no : Nat) (d : List Spec.Item) : Prop :=
  ∃ F, ∀ k, F ≤ k → dumpAt b c.P.len k level (no * c.P.pagesize) = .ok (some (textOf d))

/-- The entries shown. -/
def entriesOf (d : List Spec.Item) : List (Nat × Entry) := d.filterMap Spec.Item.entryOf

/-- The branch entries shown at a depth. -/
def refsOf (m : Nat) (d : List Spec.Item) : List (Nat × Entry) := (d.filterMap Spec.Item.refOf).filter (fun x => x.1 == m)

theorem entriesOf_append (d d' : List Spec.Item) : entriesOf (d ++ d') = entriesOf d ++ entriesOf d' := List.filterMap_append

theorem refsOf_append (m : Nat) (d d' : List Spec.Item) : refsOf m (d ++ d') = refsOf m d ++ refsOf m d' := by
  unfold refsOf; rw [List.filterMap_append, List.filter_append]

theorem entriesOf_weave (level : Nat) {ds : List (List Spec.Item)} {E : List Spec.Ref} (h : ds.length = E.length) :
    entriesOf (weave level ds E) = entriesOf ds.flatten := by
  induction ds generalizing E with
  | nil => rfl
  | cons d ds ih =>
    cases E with
    | nil => cases h
    | cons r E =>
      have := ih (E := E) (by simpa using h)
      rw [weave, entriesOf_append, List.flatten_cons, entriesOf_append, ← this]
      rfl

theorem refsOf_weave_other (level m : Nat) (hm : level ≠ m) {ds : List (List Spec.Item)} {E : List Spec.Ref} (h : ds.length = E.length) :
    refsOf m (weave level ds E) = refsOf m ds.flatten := by
  induction ds generalizing E with
  | nil => rfl
  | cons d ds ih =>
    cases E with
    | nil => cases h
    | cons r E =>
      have := ih (E := E) (by simpa using h)
      rw [weave, refsOf_append, List.flatten_cons, refsOf_append, ← this]
      congr 1
      unfold refsOf
      simp [Spec.Item.refOf, List.filter_cons, hm]

theorem refsOf_weave_same (level : Nat) {ds : List (List Spec.Item)} {E : List Spec.Ref} (h : ds.length = E.length)
    (h0 : refsOf level ds.flatten = []) : refsOf level (weave level ds E) = E.map (fun r => (level, r.1)) := by
  induction ds generalizing E with
  | nil => cases E with
    | nil => rfl
    | cons _ _ => cases h
  | cons d ds ih =>
    cases E with
    | nil => cases h
    | cons r E =>
      rw [List.flatten_cons, refsOf_append] at h0
      obtain ⟨h1, h2⟩ := List.append_eq_nil_iff.mp h0
      have := ih (E := E) (by simpa using h) h2
      rw [weave, refsOf_append, h1, List.nil_append, List.map_cons, ← this]
      unfold refsOf
      simp [Spec.Item.refOf]

theorem page_off {c : Conf} {b : Base} (hp : b.pagesize = c.P.pagesize) (hs : Spec.Sizes c) (hsm : b.file.length < 2 ^ 32) {no : Nat}
    (hin : (no + 1) * c.P.pagesize ≤ b.file.length) :
    getData b.file (no * c.P.pagesize) b.pagesize = .ok (Spec.bytesOf c.P.pagesize b.file no) ∧ blockNo b (no * c.P.pagesize) = no := by
  refine ⟨by rw [hp]; exact getData_page hin, ?_⟩
  have h1 := hs.page.1
  rw [Nat.add_mul] at hin
  unfold blockNo
  rw [if_neg (by omega), hp, Nat.mul_div_cancel _ (by omega)]

theorem leaf_shown {c : Conf} {b : Base} (hp : b.pagesize = c.P.pagesize) (hs : Spec.Sizes c) (hsm : b.file.length < 2 ^ 32)
    (level : Nat) (p : Spec.Pg Entry) (prev next : Option Nat) (h : Spec.LeafAt c b.file p prev next)
    (hin : (p.no + 1) * c.P.pagesize ≤ b.file.length) :
    ∃ d, Shown c b level p.no d ∧ entriesOf d = p.ents.map (fun e => (level, e)) ∧ ∀ m, refsOf m d = [] := by
  obtain ⟨g1, g2⟩ := page_off hp hs hsm hin
  have hl := bytesOf_length hin
  have hs1 := hs.page.1
  have hu := holds_unpack h.holds (by omega)
  obtain ⟨nx, hnx⟩ := h.holds.lists
  have hcount := rd_at hnx.count.1
  rw [List.length_map] at hcount
  have hent : ∀ es : List Entry, entriesOf (es.map (Spec.Item.entry level)) = es.map (fun e => (level, e)) := by
    intro es
    induction es with
    | nil => rfl
    | cons e es ih =>
      rw [List.map_cons, List.map_cons, ← ih]; rfl
  have href : ∀ (m : Nat) (es : List Entry), refsOf m (es.map (Spec.Item.entry level)) = [] := by
    intro m es
    induction es with
    | nil => rfl
    | cons e es ih => rw [List.map_cons, ← ih]; rfl
  cases he : p.ents with
  | nil =>
    refine ⟨[], ⟨1, ?_⟩, rfl, fun _ => rfl⟩
    intro k hk
    obtain ⟨k, rfl⟩ : ∃ j, k = j + 1 := ⟨k - 1, by omega⟩
    unfold dumpAt
    rw [g1, Outcome.ok_bind, hcount, he]
    rfl
  | cons e es =>
    obtain ⟨free, nb, lb, rtb, rb, hd⟩ := leaf_text b c.P.len level (p.no * c.P.pagesize) _ _ _ hs.key.1 hu hcount
      (by rw [he]; exact Nat.succ_pos _)
    rw [g2] at hd
    refine ⟨Spec.Item.leaf level p.no p.ents.length free nb lb rtb rb :: p.ents.map (Spec.Item.entry level), ⟨1, ?_⟩, ?_, ?_⟩
    · intro k hk
      obtain ⟨k, rfl⟩ : ∃ j, k = j + 1 := ⟨k - 1, by omega⟩
      obtain ⟨fl, hf1, hf2⟩ : ∃ fl, rd (Spec.bytesOf c.P.pagesize b.file p.no) 0 2 = .ok fl ∧ fl &&& 2 ≠ 0 := by
        have hu' := hu
        unfold unpack at hu'
        rw [if_neg (by have := hs.key.1; omega)] at hu'
        obtain ⟨fl, e1, e2⟩ := bind_ok2 hu'
        refine ⟨fl, e1, ?_⟩
        intro hz
        rw [if_pos hz] at e2
        cases e2
      unfold dumpAt
      rw [g1, Outcome.ok_bind, hcount, Outcome.ok_bind, if_neg (by rw [he]; simp), hf1, Outcome.ok_bind, if_pos hf2, hd]
      simp only [Outcome.ok_bind, textOf, List.flatMap_cons, List.flatMap_map]
    · rw [← he, ← hent]; rfl
    · intro m
      rw [← href m p.ents]; rfl

theorem branch_shown {c : Conf} {b : Base} (hv : b.v838 = c.v838) (hp : b.pagesize = c.P.pagesize) (hs : Spec.Sizes c)
    (hsm : b.file.length < 2 ^ 32) (level : Nat) (p : Spec.Pg Spec.Ref) (prev next : Option Nat) (h : Spec.BranchAt c b.file p prev next)
    (hin : (p.no + 1) * c.P.pagesize ≤ b.file.length) (hch : ∀ r ∈ p.ents, (r.2 + 1) * c.P.pagesize ≤ b.file.length)
    {ds : List (List Spec.Item)} (hds : List.Forall₂ (fun (r : Spec.Ref) d => Shown c b (level + 1) r.2 d) p.ents ds) :
    ∃ d, Shown c b level p.no d ∧ entriesOf d = entriesOf ds.flatten ∧
      (∀ m, level ≠ m → refsOf m d = refsOf m ds.flatten) ∧
      (refsOf level ds.flatten = [] → refsOf level d = p.ents.map (fun r => (level, r.1))) := by
  obtain ⟨g1, g2⟩ := page_off hp hs hsm hin
  obtain ⟨flags, rest, b1, b2, b3, b4, b5, b6, b7⟩ := branchAt_iff.mp h
  have hlen := hds.length_eq
  have hcount : rd (Spec.bytesOf c.P.pagesize b.file p.no) 2 2 = .ok p.ents.length := by
    refine rd_at ⟨le 2 flags, le 4 (Spec.linkTo c prev) ++ (le 4 (Spec.linkTo c next) ++ (p.ents.flatMap (Spec.refBytes c) ++ rest)), ?_, le_length _ _, b3⟩
    rw [b7]; unfold hd; simp only [List.append_assoc]
  have hflags : rd (Spec.bytesOf c.P.pagesize b.file p.no) 0 2 = .ok flags := by
    refine rd_at ⟨[], le 2 p.ents.length ++ (le 4 (Spec.linkTo c prev) ++ (le 4 (Spec.linkTo c next) ++ (p.ents.flatMap (Spec.refBytes c) ++ rest))), ?_, rfl, b1⟩
    rw [b7]; unfold hd; simp only [List.append_assoc, List.nil_append]
  cases he : p.ents with
  | nil =>
    rw [he] at hds
    cases hds
    refine ⟨[], ⟨1, ?_⟩, rfl, fun _ _ => rfl, fun _ => rfl⟩
    intro k hk
    obtain ⟨k, rfl⟩ : ∃ j, k = j + 1 := ⟨k - 1, by omega⟩
    unfold dumpAt
    rw [g1, Outcome.ok_bind, hcount, he]
    rfl
  | cons x E =>
    have hF : ∃ F, ∀ k, F ≤ k → List.Forall₂ (fun (r : Spec.Ref) d => dumpAt b c.P.len k (level + 1) (r.2 * c.P.pagesize) = .ok (some (textOf d))) p.ents ds := by
      clear hlen he hcount b7 b6 b3 hch h
      generalize p.ents = E' at hds
      induction hds with
      | nil => exact ⟨0, fun _ _ => .nil⟩
      | cons a _ ih =>
        obtain ⟨F1, h1⟩ := a
        obtain ⟨F2, h2⟩ := ih
        exact ⟨F1 + F2, fun k hk => .cons (h1 k (by omega)) (h2 k (by omega))⟩
    obtain ⟨F, hF⟩ := hF
    refine ⟨Spec.Item.branch level p.no p.ents.length :: weave level ds p.ents, ⟨F + 1, ?_⟩, ?_, ?_, ?_⟩
    · intro k hk
      obtain ⟨k, rfl⟩ : ∃ j, k = j + 1 := ⟨k - 1, by omega⟩
      have hr := dumpRefs_weave hv hp level (Spec.bytesOf c.P.pagesize b.file p.no) (fun o => dumpAt b c.P.len k (level + 1) o) (hF k (by omega)) b6
        (fun r hr => by have := link_small hs hsm (hch r hr); unfold lastPage at this; omega)
        (hd flags p.ents.length (Spec.linkTo c prev) (Spec.linkTo c next)) rest b7
      rw [hd_length] at hr
      have hnot : ¬ (flags &&& 2 ≠ 0) := by rw [flag_bit, b2]; exact Bool.false_ne_true
      unfold dumpAt
      rw [g1, Outcome.ok_bind, hcount, Outcome.ok_bind, if_neg (by rw [he]; simp), hflags, Outcome.ok_bind, if_neg hnot, hr]
      simp only [Outcome.ok_bind]
      unfold branchHead
      rw [g2]
      rfl
    · rw [← entriesOf_weave level hlen.symm]; rfl
    · intro m hm
      rw [← refsOf_weave_other level m hm hlen.symm]; rfl
    · intro h0
      rw [← he, ← refsOf_weave_same level hlen.symm h0]; rfl

theorem forall₂_split {α β : Type} {R : α → β → Prop} {as bs : List α} {ds : List β} (h : List.Forall₂ R (as ++ bs) ds) :
    ∃ d1 d2, ds = d1 ++ d2 ∧ List.Forall₂ R as d1 ∧ List.Forall₂ R bs d2 := by
  induction as generalizing ds with
  | nil => exact ⟨[], ds, rfl, .nil, h⟩
  | cons a as ih =>
    cases h with
    | cons h1 h2 =>
      obtain ⟨d1, d2, rfl, h3, h4⟩ := ih h2
      exact ⟨_ :: d1, d2, rfl, .cons h1 h3, h4⟩

theorem row_shown {c : Conf} {b : Base} (hv : b.v838 = c.v838) (hp : b.pagesize = c.P.pagesize) (hs : Spec.Sizes c)
    (hsm : b.file.length < 2 ^ 32) (level : Nat) (row : List (Spec.Pg Spec.Ref)) (prev next : Option Nat)
    (h : Spec.Row (Spec.BranchAt c b.file) prev row next) (hin : ∀ p ∈ row, (p.no + 1) * c.P.pagesize ≤ b.file.length)
    (hch : ∀ r ∈ row.flatMap (·.ents), (r.2 + 1) * c.P.pagesize ≤ b.file.length) {ds : List (List Spec.Item)}
    (hd : List.Forall₂ (fun (r : Spec.Ref) d => Shown c b (level + 1) r.2 d) (row.flatMap (·.ents)) ds) :
    ∃ Ds, List.Forall₂ (fun (p : Spec.Pg Spec.Ref) d => Shown c b level p.no d) row Ds ∧ entriesOf Ds.flatten = entriesOf ds.flatten ∧
      (∀ m, level ≠ m → refsOf m Ds.flatten = refsOf m ds.flatten) ∧
      (refsOf level ds.flatten = [] → refsOf level Ds.flatten = (row.flatMap (·.ents)).map (fun r => (level, r.1))) := by
  induction row generalizing prev ds with
  | nil => cases hd; exact ⟨[], .nil, rfl, fun _ _ => rfl, fun _ => rfl⟩
  | cons p row ih =>
    rw [List.flatMap_cons] at hd
    obtain ⟨d1, d2, rfl, h1, h2⟩ := forall₂_split hd
    obtain ⟨d, k1, k2, k3, k4⟩ := branch_shown hv hp hs hsm level p _ _ h.1 (hin p (List.mem_cons_self ..))
      (fun r hr => hch r (by rw [List.flatMap_cons]; exact List.mem_append_left _ hr)) h1
    obtain ⟨Ds, j1, j2, j3, j4⟩ := ih _ h.2 (fun q hq => hin q (List.mem_cons_of_mem _ hq))
      (fun r hr => hch r (by rw [List.flatMap_cons]; exact List.mem_append_right _ hr)) h2
    refine ⟨d :: Ds, .cons k1 j1, ?_, ?_, ?_⟩
    · rw [List.flatten_cons, entriesOf_append, k2, j2, List.flatten_append, entriesOf_append]
    · intro m hm
      rw [List.flatten_cons, refsOf_append, k3 m hm, j3 m hm, List.flatten_append, refsOf_append]
    · intro h0
      rw [List.flatten_append, refsOf_append] at h0
      obtain ⟨e1, e2⟩ := List.append_eq_nil_iff.mp h0
      rw [List.flatten_cons, refsOf_append, k4 e1, j4 e2, List.flatMap_cons, List.map_append]

theorem leaves_shown {c : Conf} {b : Base} (hp : b.pagesize = c.P.pagesize) (hs : Spec.Sizes c) (hsm : b.file.length < 2 ^ 32)
    (level : Nat) (leaves : List (Spec.Pg Entry)) (prev next : Option Nat) (h : Spec.Row (Spec.LeafAt c b.file) prev leaves next)
    (hin : ∀ p ∈ leaves, (p.no + 1) * c.P.pagesize ≤ b.file.length) :
    ∃ Ds, List.Forall₂ (fun (p : Spec.Pg Entry) d => Shown c b level p.no d) leaves Ds ∧
      entriesOf Ds.flatten = (Spec.contents leaves).map (fun e => (level, e)) ∧ ∀ m, refsOf m Ds.flatten = [] := by
  induction leaves generalizing prev with
  | nil => exact ⟨[], .nil, rfl, fun _ => rfl⟩
  | cons p leaves ih =>
    obtain ⟨d, k1, k2, k3⟩ := leaf_shown hp hs hsm level p _ _ h.1 (hin p (List.mem_cons_self ..))
    obtain ⟨Ds, j1, j2, j3⟩ := ih _ h.2 (fun q hq => hin q (List.mem_cons_of_mem _ hq))
    refine ⟨d :: Ds, .cons k1 j1, ?_, ?_⟩
    · rw [List.flatten_cons, entriesOf_append, k2, j2, Spec.contents, Spec.contents, List.flatMap_cons, List.map_append]
    · intro m
      rw [List.flatten_cons, refsOf_append, k3, j3]; rfl

theorem ends_numbers (bs : List (List (Spec.Pg Spec.Ref))) (leaves : List (Spec.Pg Entry)) {x : Option Entry × Nat} (h : x ∈ Spec.ends bs leaves) :
    x.2 ∈ Spec.numbers bs leaves := by
  unfold Spec.numbers
  cases bs with
  | nil =>
    obtain ⟨q, hq, hq2⟩ := List.mem_map.mp h
    exact List.mem_append_right _ (List.mem_map.mpr ⟨q, hq, congrArg Prod.snd hq2⟩)
  | cons r bs =>
    obtain ⟨q, hq, hq2⟩ := List.mem_map.mp h
    rw [List.map_cons, List.flatten_cons]
    exact List.mem_append_left _ (List.mem_append_left _ (List.mem_map.mpr ⟨q, hq, congrArg Prod.snd hq2⟩))

theorem rows_shown {c : Conf} {b : Base} (hv : b.v838 = c.v838) (hp : b.pagesize = c.P.pagesize) (hs : Spec.Sizes c)
    (hsm : b.file.length < 2 ^ 32) (bs : List (List (Spec.Pg Spec.Ref))) (leaves : List (Spec.Pg Entry)) :
    ∀ (level : Nat), Spec.Rows c b.file bs leaves → (∀ n ∈ Spec.numbers bs leaves, (n + 1) * c.P.pagesize ≤ b.file.length) →
    ∃ Ds, List.Forall₂ (fun (x : Option Entry × Nat) d => Shown c b level x.2 d) (Spec.ends bs leaves) Ds ∧
      entriesOf Ds.flatten = (Spec.contents leaves).map (fun e => (level + bs.length, e)) ∧
      (∀ m, m < level → refsOf m Ds.flatten = []) ∧
      ∀ m row, bs[m]? = some row → refsOf (level + m) Ds.flatten = (row.flatMap (·.ents)).map (fun r => (level + m, r.1)) := by
  induction bs with
  | nil =>
    intro level h hin
    obtain ⟨Ds, h1, h2, h3⟩ := leaves_shown hp hs hsm level leaves none none h
      (fun p hp => hin p.no (ends_numbers [] leaves (List.mem_map.mpr ⟨p, hp, rfl⟩)))
    refine ⟨Ds, ?_, h2, fun m _ => h3 m, fun m row hm => by cases hm⟩
    unfold Spec.ends
    rw [List.forall₂_map_left_iff]
    exact h1
  | cons row bs ih =>
    intro level h hin
    rw [numbers_cons] at hin
    obtain ⟨ds, h1, h2, h3, h4⟩ := ih (level + 1) h.2.2 (fun n hn => hin n (List.mem_append_right _ hn))
    have hd : List.Forall₂ (fun (r : Spec.Ref) d => Shown c b (level + 1) r.2 d) (row.flatMap (·.ents)) ds := by
      rw [← h.2.1, List.forall₂_map_left_iff] at h1
      exact h1
    obtain ⟨Ds, k1, k2, k3, k4⟩ := row_shown hv hp hs hsm level row none none h.1
      (fun p hp => hin p.no (List.mem_append_left _ (List.mem_map.mpr ⟨p, hp, rfl⟩)))
      (fun r hr => hin r.2 (List.mem_append_right _ (ends_numbers bs leaves (by rw [← h.2.1]; exact List.mem_map.mpr ⟨r, hr, rfl⟩))))
      hd
    have k4' := k4 (h3 level (Nat.lt_succ_self _))
    refine ⟨Ds, ?_, ?_, ?_, ?_⟩
    · unfold Spec.ends
      rw [List.forall₂_map_left_iff]
      exact k1
    · rw [k2, h2, List.length_cons, show level + 1 + bs.length = level + (bs.length + 1) by omega]
    · intro m hm
      rw [k3 m (by omega), h3 m (by omega)]
    · intro m row' hm
      cases m with
      | zero => cases hm; exact k4'
      | succ m =>
        rw [k3 _ (by omega)]
        have := h4 m row' hm
        rw [show level + 1 + m = level + (m + 1) by omega] at this
        exact this

/-- **C105.** The text written for an index of any depth and any number of pages: after the length of
the keys there are lines that show every entry of the index exactly once, in the order of the
index, and at each depth the entries of the branch pages, in their order. -/
theorem dump_shows_index (c : Conf) (b : Base) (root : Nat) (bs : List (List (Spec.Pg Spec.Ref))) (leaves : List (Spec.Pg Entry))
    (ht : Spec.Tree c b.file root bs leaves) (hv : b.v838 = c.v838) (hp : b.pagesize = c.P.pagesize)
    (hh : Spec.Header b (Spec.linkTo c (some root)) c.P.len) :
    ∃ (doc : List Spec.Item) (fuel : Nat), (∀ k, fuel ≤ k → dump b k =
        .ok (some (ascii "Index length " ++ ascii (toString c.P.len) ++ ascii "\r\n" ++ doc.flatMap Spec.Item.text))) ∧
      doc.filterMap Spec.Item.entryOf = (Spec.contents leaves).map (fun e => (bs.length, e)) ∧
      ∀ m row, bs[m]? = some row →
        (doc.filterMap Spec.Item.refOf).filter (fun x => x.1 == m) = (row.flatMap (·.ents)).map (fun r => (m, r.1)) := by
  obtain ⟨Ds, h1, h2, _, h4⟩ := rows_shown hv hp ht.sizes ht.placed.small bs leaves 0 ht.rows
    (fun n hn => (ht.placed.inside n hn).2)
  have htop := ht.top
  obtain ⟨x, hx⟩ : ∃ x, Spec.ends bs leaves = [x] := by
    cases he : Spec.ends bs leaves with
    | nil => rw [he] at htop; cases htop
    | cons x T =>
      cases T with
      | nil => exact ⟨x, rfl⟩
      | cons y T => rw [he] at htop; simp at htop
  rw [hx] at h1 htop
  have hxr : x.2 = root := by simpa using htop
  cases h1 with
  | @cons _ d _ _ a1 a2 =>
    cases a2
    obtain ⟨F, hF⟩ := a1
    rw [hxr] at hF
    simp only [List.flatten_cons, List.flatten_nil, List.append_nil] at h2 h4
    refine ⟨d, F, ?_, by rw [Nat.zero_add] at h2; exact h2, ?_⟩
    · intro k hk
      obtain ⟨h0, h8, g1, g2, g3⟩ := hh
      obtain ⟨hd, hhd⟩ : ∃ hd, getData b.file b.start 8 = .ok hd := ⟨_, if_pos h8⟩
      have hoff : b.offset (Spec.linkTo c (some root)) = root * c.P.pagesize := by
        rw [← child_link c root]
        unfold Base.offset Conf.child
        rw [hv, hp]
      have hkl : keyLength c.P.len = c.P.len := if_pos g3
      unfold dump
      rw [if_neg (by omega), hhd, Outcome.ok_bind, rd_part (off := 0) hhd g1 (by omega), Outcome.ok_bind,
        rd_part (off := 4) hhd g2 (by omega), Outcome.ok_bind, hkl, hoff, hF k hk]
      rfl
    · intro m row hm
      have := h4 m row hm
      rw [Nat.zero_add] at this
      exact this

end Verif.Index
