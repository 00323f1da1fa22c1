import Verif.Index.EditSpec
import Verif.Index.WalkTheorems

/-! # Property theorems: changing a leaf page (C60, C61) -/

namespace Verif.Index
open Verif

/-! ## The order of keys -/

theorem before_cons (x : Byte) (a b : Bytes) : Spec.Before (x :: a) (x :: b) ↔ Spec.Before a b := by
  constructor
  · rintro ⟨i, y, z, h1, h2, h3, h4⟩
    cases i with
    | zero =>
      cases h2; cases h3
      exact absurd h4 (UInt8.lt_irrefl _)
    | succ i =>
      refine ⟨i, y, z, ?_, h2, h3, h4⟩
      rw [List.take_succ_cons, List.take_succ_cons] at h1
      exact (List.cons.inj h1).2
  · rintro ⟨i, y, z, h1, h2, h3, h4⟩
    exact ⟨i + 1, y, z, by rw [List.take_succ_cons, List.take_succ_cons, h1], h2, h3, h4⟩

theorem before_head {x y : Byte} (a b : Bytes) (h : x < y) : Spec.Before (x :: a) (y :: b) := ⟨0, x, y, rfl, rfl, rfl, h⟩

theorem before_head_iff {x y : Byte} (a b : Bytes) (h : x ≠ y) : Spec.Before (x :: a) (y :: b) ↔ x < y := by
  constructor
  · rintro ⟨i, u, v, h1, h2, h3, h4⟩
    cases i with
    | zero => cases h2; cases h3; exact h4
    | succ i =>
      rw [List.take_succ_cons, List.take_succ_cons] at h1
      exact absurd (List.cons.inj h1).1 h
  · exact before_head a b

theorem lessB_iff (a b : Bytes) : lessB a b = true ↔ Spec.Before a b := by
  induction a generalizing b with
  | nil =>
    simp only [lessB, Bool.false_eq_true, false_iff]
    rintro ⟨i, y, z, _, h2, _, _⟩
    cases h2
  | cons x a ih =>
    cases b with
    | nil =>
      simp only [lessB, Bool.false_eq_true, false_iff]
      rintro ⟨i, y, z, _, _, h3, _⟩
      cases h3
    | cons y b =>
      rw [lessB]
      by_cases h : x = y
      · subst h
        rw [if_pos rfl, before_cons, ih]
      · rw [if_neg h, before_head_iff a b h, decide_eq_true_iff]

instance (a b : Bytes) : Decidable (Spec.Before a b) := decidable_of_iff _ (lessB_iff a b)

theorem before_irrefl (a : Bytes) : ¬ Spec.Before a a := by
  rintro ⟨i, y, z, _, h2, h3, h4⟩
  rw [h2] at h3
  cases h3
  exact UInt8.lt_irrefl _ h4

theorem before_trans {a b c : Bytes} (h1 : Spec.Before a b) (h2 : Spec.Before b c) : Spec.Before a c := by
  induction a generalizing b c with
  | nil => obtain ⟨i, y, z, _, h, _, _⟩ := h1; cases h
  | cons x a ih =>
    cases b with
    | nil => obtain ⟨i, y, z, _, h, _, _⟩ := h2; cases h
    | cons y b =>
      cases c with
      | nil => obtain ⟨i, y, z, _, _, h, _⟩ := h2; cases h
      | cons z c =>
        by_cases hxy : x = y
        · subst hxy
          by_cases hyz : x = z
          · subst hyz
            exact (before_cons x a c).mpr (ih ((before_cons x a b).mp h1) ((before_cons x b c).mp h2))
          · exact before_head a c ((before_head_iff b c hyz).mp h2)
        · have hlt := (before_head_iff a b hxy).mp h1
          by_cases hyz : y = z
          · subst hyz
            exact before_head a c hlt
          · exact before_head a c (UInt8.lt_trans hlt ((before_head_iff b c hyz).mp h2))

theorem before_total {a b : Bytes} (hl : a.length = b.length) : Spec.Before a b ∨ a = b ∨ Spec.Before b a := by
  induction a generalizing b with
  | nil =>
    cases b with
    | nil => exact .inr (.inl rfl)
    | cons y b => cases hl
  | cons x a ih =>
    cases b with
    | nil => cases hl
    | cons y b =>
      by_cases h : x = y
      · subst h
        rw [before_cons, before_cons]
        rcases ih (Nat.succ.inj hl) with h | h | h
        · exact .inl h
        · exact .inr (.inl (by rw [h]))
        · exact .inr (.inr h)
      · rw [before_head_iff a b h, before_head_iff b a (fun hh => h hh.symm)]
        rcases Nat.lt_trichotomy x.toNat y.toNat with h1 | h1 | h1
        · exact .inl (UInt8.lt_iff_toNat_lt.mpr h1)
        · exact absurd (UInt8.toNat_inj.mp h1) h
        · exact .inr (.inr (UInt8.lt_iff_toNat_lt.mpr h1))

/-! ## Sorted pages -/

theorem sorted_tail {primary : Bool} {a : Entry} {es : List Entry} (h : Spec.Sorted primary (a :: es)) : Spec.Sorted primary es := by
  cases es with
  | nil => trivial
  | cons b es => exact h.2

theorem sorted_append {primary : Bool} (a b : List Entry) (h : Spec.Sorted primary (a ++ b)) : Spec.Sorted primary a ∧ Spec.Sorted primary b := by
  induction a with
  | nil => exact ⟨trivial, h⟩
  | cons x a ih =>
    obtain ⟨i1, i2⟩ := ih (sorted_tail h)
    refine ⟨?_, i2⟩
    cases a with
    | nil => trivial
    | cons y a => exact ⟨h.1, i1⟩

theorem sorted_first {primary : Bool} {a : Entry} {es : List Entry} (h : Spec.Sorted primary (a :: es)) :
    ∀ x ∈ es, Spec.Before a.key x.key ∨ (primary = false ∧ a.key = x.key) := by
  induction es generalizing a with
  | nil => intro x hx; cases hx
  | cons b es ih =>
    intro x hx
    rcases List.mem_cons.mp hx with rfl | hx
    · exact h.1
    · rcases ih h.2 x hx with h2 | ⟨h2, h3⟩
      · rcases h.1 with h1 | ⟨h1, h1'⟩
        · exact .inl (before_trans h1 h2)
        · rw [h1']; exact .inl h2
      · rcases h.1 with h1 | ⟨h1, h1'⟩
        · rw [h3] at h1; exact .inl h1
        · exact .inr ⟨h1, h1'.trans h3⟩

theorem sorted_of {primary : Bool} {a : Entry} {es : List Entry} (h : Spec.Sorted primary es)
    (hf : ∀ x ∈ es, Spec.Before a.key x.key ∨ (primary = false ∧ a.key = x.key)) : Spec.Sorted primary (a :: es) := by
  cases es with
  | nil => trivial
  | cons b es => exact ⟨hf b (List.mem_cons_self ..), h⟩

theorem inserted_sorted {primary : Bool} {e : Entry} {old new : List Entry} (h : Spec.Inserted e old new) (hs : Spec.Sorted primary old)
    (hp : primary = true → ∀ x ∈ old, x.key ≠ e.key) : Spec.Sorted primary new := by
  obtain ⟨a, b, rfl, rfl, h3, h4⟩ := h
  have hmid : Spec.Sorted primary (e :: b) := by
    apply sorted_of (sorted_append a b hs).2
    intro x hx
    rcases h4 x hx with h | h
    · exact .inl h
    · cases primary with
      | false => exact .inr ⟨rfl, h.symm⟩
      | true => exact absurd h (hp rfl x (List.mem_append_right _ hx))
  clear hp
  induction a with
  | nil => exact hmid
  | cons x a ih =>
    have hxs := sorted_first hs
    refine sorted_of (ih (sorted_tail hs) (fun y hy => h3 y (List.mem_cons_of_mem _ hy))) ?_
    intro y hy
    rcases List.mem_append.mp hy with hy | hy
    · exact hxs y (List.mem_append_left _ hy)
    · rcases List.mem_cons.mp hy with rfl | hy
      · exact .inl (h3 x (List.mem_cons_self ..))
      · exact hxs y (List.mem_append_right _ hy)

/-- Searching the place of a new entry among sorted ones. -/
theorem place_spec {primary : Bool} {num : Nat} {key : Bytes} {es : List Entry} (hs : Spec.Sorted primary es)
    (hl : ∀ x ∈ es, x.key.length = key.length) :
    (∃ a x b, es = a ++ x :: b ∧ x.key = key ∧ (∀ y ∈ a, Spec.Before y.key key) ∧ (primary = true ∨ x.num = num) ∧ place primary num key es = .throw) ∨
    (∃ i, place primary num key es = .ok i ∧ i ≤ es.length ∧ Spec.Inserted ⟨num, key⟩ es (es.take i ++ ⟨num, key⟩ :: es.drop i)) := by
  induction es with
  | nil => exact .inr ⟨0, rfl, Nat.le_refl _, [], [], rfl, rfl, fun x hx => (by cases hx), fun x hx => (by cases hx)⟩
  | cons e es ih =>
    rw [place]
    by_cases hk : key = e.key
    · rw [if_pos hk]
      by_cases hc : primary = true ∨ e.num = num
      · rw [if_pos hc]
        exact .inl ⟨[], e, es, rfl, hk.symm, fun y hy => (by cases hy), hc, rfl⟩
      · rw [if_neg hc]
        refine .inr ⟨0, rfl, Nat.zero_le _, [], e :: es, rfl, rfl, fun x hx => (by cases hx), ?_⟩
        intro x hx
        rcases List.mem_cons.mp hx with rfl | hx
        · exact .inr hk.symm
        · rcases sorted_first hs x hx with h | ⟨_, h⟩
          · left; show Spec.Before key x.key; rw [hk]; exact h
          · right; show x.key = key; rw [hk, h]
    · rw [if_neg hk]
      by_cases hlt : lessB key e.key = true
      · rw [if_pos hlt]
        have hb := (lessB_iff _ _).mp hlt
        refine .inr ⟨0, rfl, Nat.zero_le _, [], e :: es, rfl, rfl, fun x hx => (by cases hx), ?_⟩
        intro x hx
        rcases List.mem_cons.mp hx with rfl | hx
        · exact .inl hb
        · rcases sorted_first hs x hx with h | ⟨_, h⟩
          · exact .inl (before_trans hb h)
          · left; show Spec.Before key x.key; rw [← h]; exact hb
      · rw [if_neg hlt]
        have hb : Spec.Before e.key key := by
          rcases before_total (hl e (List.mem_cons_self ..)) with h | h | h
          · exact h
          · exact absurd h.symm hk
          · exact absurd ((lessB_iff _ _).mpr h) hlt
        rcases ih (sorted_tail hs) (fun x hx => hl x (List.mem_cons_of_mem _ hx)) with ⟨a, x, b, h1, h2, h3, h4, h5⟩ | ⟨i, h1, h2, a, b, h3, h4, h5, h6⟩
        · left
          refine ⟨e :: a, x, b, by rw [h1]; rfl, h2, ?_, h4, by rw [h5]; rfl⟩
          intro y hy
          rcases List.mem_cons.mp hy with rfl | hy
          · exact hb
          · exact h3 y hy
        · right
          refine ⟨i + 1, by rw [h1]; rfl, Nat.succ_le_succ h2, e :: a, b, by rw [h3]; rfl, ?_, ?_, h6⟩
          · rw [List.take_succ_cons, List.drop_succ_cons, List.cons_append, h4]; rfl
          · intro y hy
            rcases List.mem_cons.mp hy with rfl | hy
            · exact hb
            · exact h5 y hy

/-! ## Headers -/

theorem setHdr_length {p : Bytes} {fl prev next : Nat} (h : 12 ≤ p.length) : (setHdr p fl prev next).length = p.length := by
  unfold setHdr
  simp only [List.length_append, le_length, List.length_take, List.length_drop]
  omega

theorem setHdr_drop {p : Bytes} {fl prev next : Nat} (h : 12 ≤ p.length) : (setHdr p fl prev next).drop 12 = p.drop 12 := by
  unfold setHdr
  exact List.drop_left' (by simp only [List.length_append, le_length, List.length_take, List.length_drop]; omega)

theorem setHdr_flags {p : Bytes} {fl prev next : Nat} (h : fl < 65536) : rd (setHdr p fl prev next) 0 2 = .ok fl :=
  rd_le (pre := []) (by unfold setHdr; simp only [List.append_assoc, List.nil_append]; rfl) rfl h

theorem setHdr_prev {p : Bytes} {fl prev next : Nat} (hp : 4 ≤ p.length) (h : prev < 2 ^ 32) : rd (setHdr p fl prev next) 4 4 = .ok prev :=
  rd_le (pre := le 2 fl ++ (p.drop 2).take 2) (by unfold setHdr; simp only [List.append_assoc]; rfl)
    (by simp only [List.length_append, le_length, List.length_take, List.length_drop]; omega) h

theorem setHdr_next {p : Bytes} {fl prev next : Nat} (hp : 4 ≤ p.length) (h : next < 2 ^ 32) : rd (setHdr p fl prev next) 8 4 = .ok next :=
  rd_le (pre := le 2 fl ++ (p.drop 2).take 2 ++ le 4 prev) (by unfold setHdr; simp only [List.append_assoc]; rfl)
    (by simp only [List.length_append, le_length, List.length_take, List.length_drop]; omega) h

theorem setHdr_count {p : Bytes} {fl prev next : Nat} (hp : 12 ≤ p.length) : rd (setHdr p fl prev next) 2 2 = rd p 2 2 := by
  unfold rd
  rw [setHdr_length hp]
  have : ((setHdr p fl prev next).drop 2).take 2 = (p.drop 2).take 2 := by
    unfold setHdr
    simp only [List.append_assoc]
    rw [List.drop_left' (le_length _ _), List.take_left' (by rw [List.length_take, List.length_drop]; omega)]
  rw [this]

theorem rd_ok {p : Bytes} {off k n : Nat} (h : rd p off k = .ok n) : off + k ≤ p.length ∧ (p.drop off).take k = le k n ∧ n < 256 ^ k := by
  unfold rd at h
  split at h
  · rename_i hl
    have hn : ofLe ((p.drop off).take k) = n := Outcome.ok.inj h
    have hk : ((p.drop off).take k).length = k := by rw [List.length_take, List.length_drop]; omega
    refine ⟨hl, ?_, ?_⟩
    · have := le_ofLe ((p.drop off).take k)
      rw [hk, hn] at this
      exact this.symm
    · have := ofLe_lt ((p.drop off).take k)
      rwa [hk, hn] at this
  · cases h

/-- Giving a page back its own flags and links. -/
theorem setHdr_header {page p : Bytes} {fl prev next : Nat} (hp : 4 ≤ p.length) (h1 : rd page 0 2 = .ok fl) (h2 : rd page 4 4 = .ok prev)
    (h3 : rd page 8 4 = .ok next) : Spec.header (setHdr p fl prev next) = Spec.header page := by
  obtain ⟨_, e1, _⟩ := rd_ok h1
  obtain ⟨_, e2, _⟩ := rd_ok h2
  obtain ⟨_, e3, _⟩ := rd_ok h3
  have hc : (page.drop 4).take 8 = le 4 prev ++ le 4 next := by
    rw [← e2, ← e3, show (8 : Nat) = 4 + 4 by rfl, List.take_add, ← List.drop_drop]
  unfold Spec.header
  rw [hc]
  rw [List.drop_zero] at e1
  rw [e1]
  congr 1
  · unfold setHdr
    rw [List.append_assoc (le 2 fl ++ (p.drop 2).take 2 ++ le 4 prev), List.append_assoc (le 2 fl ++ (p.drop 2).take 2)]
    rw [List.drop_left' (by simp only [List.length_append, le_length, List.length_take, List.length_drop]; omega),
      ← List.append_assoc, List.take_left' (by simp only [List.length_append, le_length])]

/-- What unpacking tells about the flags. -/
theorem unpack_flags {len : Nat} {page : Bytes} {es : List Entry} (h0 : 0 < len) (h : unpack len page = .ok es) :
    ∃ fl, rd page 0 2 = .ok fl ∧ ¬ (fl &&& 2 = 0) := by
  unfold unpack at h
  rw [if_neg (by omega)] at h
  obtain ⟨fl, h1, h2⟩ := bind_ok h
  refine ⟨fl, h1, ?_⟩
  intro hf
  rw [if_pos hf] at h2
  cases h2

theorem entries_sub {len : Nat} {es a : List Entry} (h : Spec.Entries len es) (hs : ∀ x ∈ a, x ∈ es) : Spec.Entries len a :=
  fun e he => h e (hs e he)

/-- A packed page under any flags and links unpacks to its entries. -/
theorem unpack_setHdr (primary : Bool) (len pagesize : Nat) (rest : Bytes) (es : List Entry) (page p : Bytes) (fl prev next : Nat)
    (h0 : 0 < len) (hlen : len < 2 ^ 15) (hes : Spec.Entries len es) (hne : es ≠ []) (hps : 30 ≤ pagesize) (hps' : pagesize ≤ 65536)
    (hpl : page.length = pagesize) (w : Nat) (hw : Spec.IsWidth len es w) (h : pack primary len pagesize rest es page = .ok (some p))
    (hfl : fl < 65536) (hfl2 : ¬ (fl &&& 2 = 0)) :
    (setHdr p fl prev next).length = pagesize ∧ (Spec.Readable pagesize es w → unpack len (setHdr p fl prev next) = .ok es) := by
  have hl := (pack_keeps_links _ _ _ _ _ _ _ hps hpl h).1
  refine ⟨by rw [setHdr_length (by omega), hl], ?_⟩
  intro hr
  rw [unpack_like primary len pagesize rest es page p _ fl h0 hlen hes hne hps hps' hpl w hw h (setHdr_drop (by omega))
    (setHdr_length (by omega)) (setHdr_flags hfl) hfl2 (setHdr_count (by omega))]
  exact if_pos hr

/-! ## Inserting -/

theorem isWidth_exists (len : Nat) (hlen : len < 2 ^ 15) (es : List Entry) (hes : Spec.Entries len es) : ∃ w, Spec.IsWidth len es w :=
  ⟨_, recBytes_isWidth len hlen es hes⟩

theorem inserted_mem {e : Entry} {old new : List Entry} (h : Spec.Inserted e old new) : ∀ x, x ∈ new ↔ x = e ∨ x ∈ old := by
  obtain ⟨a, b, rfl, rfl, _, _⟩ := h
  intro x
  simp only [List.mem_append, List.mem_cons]
  constructor
  · rintro (h | h | h)
    · exact .inr (.inl h)
    · exact .inl h
    · exact .inr (.inr h)
  · rintro (h | h | h)
    · exact .inr (.inl h)
    · exact .inl h
    · exact .inr (.inr h)

theorem endsApart_drop {es : List Entry} (h : Spec.EndsApart es) (n : Nat) : Spec.EndsApart (es.drop n) := by
  intro pre a b he
  apply h (es.take n ++ pre) a b
  rw [List.append_assoc, ← he, List.take_append_drop]

/-- C60. A key that is already in the page of a primary index is refused. -/
theorem insert_refused (P : Params) (page junk : Bytes) (es : List Entry) (num : Nat) (key : Bytes)
    (h0 : 0 < P.len) (hpl : 12 ≤ page.length) (hu : unpack P.len page = .ok es) (hes : Spec.Entries P.len es)
    (hs : Spec.Sorted P.primary es) (hk : key.length = P.len) (hp : P.primary = true) (hin : ∃ x ∈ es, x.key = key) :
    leafWrite P page junk num key = .throw := by
  obtain ⟨fl, hf1, hf2⟩ := unpack_flags h0 hu
  obtain ⟨prev, hprev⟩ : ∃ n, rd page 4 4 = .ok n := ⟨_, if_pos (by omega)⟩
  obtain ⟨next, hnext⟩ : ∃ n, rd page 8 4 = .ok n := ⟨_, if_pos (by omega)⟩
  have hpl' : place P.primary num key es = .throw := by
    rcases place_spec (num := num) hs (fun x hx => by rw [(hes x hx).1, hk]) with ⟨_, _, _, _, _, _, _, h⟩ | ⟨i, h1, h2, h3⟩
    · exact h
    · exfalso
      obtain ⟨x, hx, hxk⟩ := hin
      obtain ⟨a, b, g1, g2, g3, g4⟩ := h3
      have hsorted : Spec.Sorted P.primary es := hs
      -- the first key not before the new one is equal to it
      clear g2
      subst g1
      rcases List.mem_append.mp hx with hx | hx
      · have := g3 x hx
        rw [hxk] at this
        exact before_irrefl _ this
      · have hb := (sorted_append a b hs).2
        cases b with
        | nil => cases hx
        | cons y b =>
          have hy : y.key = key := by
            rcases g4 y (List.mem_cons_self ..) with hy | hy
            · exfalso
              rcases List.mem_cons.mp hx with rfl | hx
              · rw [hxk] at hy; exact before_irrefl _ hy
              · rcases sorted_first hb x hx with hh | ⟨_, hh⟩
                · have := before_trans hy hh
                  rw [hxk] at this
                  exact before_irrefl _ this
                · rw [hh, hxk] at hy; exact before_irrefl _ hy
            · exact hy
          have : ∀ (a : List Entry), (∀ z ∈ a, Spec.Before z.key key) → place P.primary num key (a ++ y :: b) = .throw := by
            intro a
            induction a with
            | nil => intro _; rw [List.nil_append, place, if_pos hy.symm, if_pos (.inl hp)]
            | cons z a ih =>
              intro hz
              have hzb := hz z (List.mem_cons_self ..)
              have h1 : ¬ key = z.key := fun hh => by rw [← hh] at hzb; exact before_irrefl _ hzb
              have h2 : ¬ lessB key z.key = true := fun hh => before_irrefl _ (before_trans hzb ((lessB_iff _ _).mp hh))
              rw [List.cons_append, place, if_neg h1, if_neg h2, ih (fun y hy => hz y (List.mem_cons_of_mem _ hy))]
              rfl
          rw [this a g3] at h1
          cases h1
  unfold leafWrite
  rw [hf1, Outcome.ok_bind, hprev, Outcome.ok_bind, hnext, Outcome.ok_bind, hu, Outcome.ok_bind, hpl']
  rfl

/-- What a half of a split page holds: the entries, if they fit. -/
def Half (P : Params) (es : List Entry) (p : Option Bytes) : Prop :=
  ∀ w, Spec.IsWidth P.len es w →
    (Spec.Fits P.pagesize P.len es w → ∃ q, p = some q ∧ q.length = P.pagesize ∧
      ∀ fl prev next, fl < 65536 → fl.testBit 1 = true →
        (setHdr q fl prev next).length = P.pagesize ∧ (Spec.Readable P.pagesize es w → unpack P.len (setHdr q fl prev next) = .ok es)) ∧
    (¬ Spec.Fits P.pagesize P.len es w → p = none)

theorem half_of (P : Params) (rest : Bytes) (es : List Entry) (page : Bytes) (p : Option Bytes)
    (h0 : 0 < P.len) (hlen : P.len < 2 ^ 15) (hps : 30 ≤ P.pagesize) (hps' : P.pagesize ≤ 65536) (hpl : page.length = P.pagesize)
    (hes : Spec.Entries P.len es) (hne : es ≠ []) (hs : Spec.Sorted P.primary es) (hend : rest ≠ [] ∨ Spec.EndsApart es)
    (h : pack P.primary P.len P.pagesize rest es page = .ok p) : Half P es p := by
  intro w hw
  obtain ⟨h1, h2⟩ := pack_sorted P.primary P.len P.pagesize rest es page h0 hlen hes hne hs hend w hw
  constructor
  · intro hf
    obtain ⟨q, hq⟩ := h1 hf
    rw [hq] at h
    cases h
    refine ⟨q, rfl, (pack_keeps_links _ _ _ _ _ _ _ hps hpl hq).1, ?_⟩
    intro fl prev next hfl hfl2
    exact unpack_setHdr P.primary P.len P.pagesize rest es page q fl prev next h0 hlen hes hne hps hps' hpl w hw hq hfl ((flag_bit fl).mpr hfl2)
  · intro hf
    have := h2 (by unfold Spec.Fits at hf; omega)
    rw [this] at h
    cases h
    rfl

/-- C60. Adding an entry to a leaf page puts it in its place among the sorted entries. If
they all fit the page, it is rewritten with them, with its flags and links; otherwise the
first and the second half of the entries go to two pages, each of which holds its half if
that half fits. Excluded are two equal keys at the end, for which the packer reads past its
buffer (`duplicate_end_reads_past`), and pages so full that the unpacker reads past their end
(`full_page_unreadable`). -/
theorem leaf_insert_partial (P : Params) (page junk : Bytes) (es : List Entry) (num : Nat) (key : Bytes)
    (h0 : 0 < P.len) (hlen : P.len < 2 ^ 15) (hps : 30 ≤ P.pagesize) (hps' : P.pagesize ≤ 65536)
    (hpl : page.length = P.pagesize) (hjl : junk.length = P.pagesize)
    (hu : unpack P.len page = .ok es) (hes : Spec.Entries P.len es) (hs : Spec.Sorted P.primary es)
    (hk : key.length = P.len) (hn : num < 2 ^ 32) (hp : P.primary = true → ∀ x ∈ es, x.key ≠ key) (hnew : (⟨num, key⟩ : Entry) ∉ es) :
    ∃ new, Spec.Inserted ⟨num, key⟩ es new ∧ Spec.Sorted P.primary new ∧ (Spec.EndsApart new → ∀ w, Spec.IsWidth P.len new w →
      (Spec.Fits P.pagesize P.len new w → ∃ page' last, leafWrite P page junk num key = .ok (.fits page' last) ∧
        page'.length = P.pagesize ∧ Spec.header page' = Spec.header page ∧
        (Spec.Readable P.pagesize new w → unpack P.len page' = .ok new) ∧
        (last = none ∨ last = new.getLast?) ∧ (last = none ↔ es.getLast? = new.getLast?)) ∧
      (¬ Spec.Fits P.pagesize P.len new w → 2 ≤ new.length → ∃ p1 p2 l1 l2, leafWrite P page junk num key = .ok (.split p1 p2 l1 l2) ∧
        Half P (new.take (new.length / 2)) p1 ∧ Half P (new.drop (new.length / 2)) p2 ∧
        (new.take (new.length / 2)).getLast? = some l1 ∧ (new.drop (new.length / 2)).getLast? = some l2)) := by
  obtain ⟨fl, hf1, hf2⟩ := unpack_flags h0 hu
  obtain ⟨prev, hprev⟩ : ∃ n, rd page 4 4 = .ok n := ⟨_, if_pos (by omega)⟩
  obtain ⟨next, hnext⟩ : ∃ n, rd page 8 4 = .ok n := ⟨_, if_pos (by omega)⟩
  have hkl : ∀ x ∈ es, x.key.length = key.length := fun x hx => by rw [(hes x hx).1, hk]
  rcases place_spec (num := num) hs hkl with ⟨a, x, b, g1, g2, _, g4, _⟩ | ⟨i, h1, h2, h3⟩
  · exfalso
    rcases g4 with g4 | g4
    · exact hp g4 x (by rw [g1]; simp) g2
    · apply hnew
      rw [g1]
      cases x
      cases g2
      cases g4
      simp
  · have hmem := inserted_mem h3
    have hsn := inserted_sorted h3 hs hp
    obtain ⟨new, hnewdef⟩ : ∃ new, new = es.take i ++ (⟨num, key⟩ : Entry) :: es.drop i := ⟨_, rfl⟩
    have hesn : Spec.Entries P.len new := by
      intro x hx
      rw [hnewdef] at hx
      rcases (hmem x).mp hx with rfl | hx
      · exact ⟨hk, hn⟩
      · exact hes x hx
    have hne : new ≠ [] := by rw [hnewdef]; simp
    have hnl : new.length = es.length + 1 := by
      rw [hnewdef]
      simp only [List.length_append, List.length_cons, List.length_take, List.length_drop]
      omega
    have hlast : i = es.length ∨ (i < es.length ∧ es.getLast? = new.getLast?) := by
      rcases Nat.lt_or_ge i es.length with hlt | hge
      · right
        refine ⟨hlt, ?_⟩
        rw [hnewdef, List.getLast?_append, List.getLast?_cons, List.getLast?_drop, if_neg (by omega)]
        cases hg : es.getLast? with
        | none => rw [List.getLast?_eq_none_iff] at hg; rw [hg] at hlt; cases hlt
        | some x => simp
      · left; omega
    have hnotlast : i = es.length → new.getLast? = some ⟨num, key⟩ := by
      rintro rfl
      rw [hnewdef]
      simp
    rw [← hnewdef] at h3 hsn
    refine ⟨new, h3, hsn, ?_⟩
    intro hend w hw
    obtain ⟨q1, q2⟩ := pack_sorted P.primary P.len P.pagesize [] new page h0 hlen hesn hne hsn (.inr hend) w hw
    have hunf : leafWrite P page junk num key = (pack P.primary P.len P.pagesize [] new page >>= fun r => match r with
      | some p => .ok (.fits (setHdr p fl prev next) (if i = es.length then new.getLast? else none))
      | none => do
        let n1 := new.length / 2
        let p1 ← pack P.primary P.len P.pagesize ((new.drop n1).map entryBytes).flatten (new.take n1) page
        let p2 ← pack P.primary P.len P.pagesize [] (new.drop n1) junk
        match (new.take n1).getLast?, new.getLast? with
        | some l1, some l2 => .ok (.split p1 p2 l1 l2)
        | _, _ => .ub) := by
      unfold leafWrite
      rw [hf1, Outcome.ok_bind, hprev, Outcome.ok_bind, hnext, Outcome.ok_bind, hu, Outcome.ok_bind, h1, Outcome.ok_bind, hnewdef]
      rfl
    constructor
    · intro hf
      obtain ⟨p, hpk⟩ := q1 hf
      obtain ⟨hl1, hl2⟩ := unpack_setHdr P.primary P.len P.pagesize [] new page p fl prev next h0 hlen hesn hne hps hps' hpl w hw hpk
        (rd_ok hf1).2.2 hf2
      have hpl2 := (pack_keeps_links _ _ _ _ _ _ _ hps hpl hpk).1
      refine ⟨setHdr p fl prev next, if i = es.length then new.getLast? else none, by rw [hunf, hpk]; rfl, hl1,
        setHdr_header (by omega) hf1 hprev hnext, hl2, ?_, ?_⟩
      · split
        · exact .inr rfl
        · exact .inl rfl
      · rcases hlast with hi | ⟨hi, hi'⟩
        · rw [if_pos hi, hnotlast hi]
          constructor
          · intro h; cases h
          · intro h
            exfalso
            exact hnew (List.mem_of_getLast? h)
        · rw [if_neg (by omega)]
          exact ⟨fun _ => hi', fun _ => rfl⟩
    · intro hf h2l
      have hpk := q2 (by unfold Spec.Fits at hf; omega)
      have hn1 : 1 ≤ new.length / 2 ∧ new.length / 2 < new.length := by omega
      have hne1 : new.take (new.length / 2) ≠ [] := by
        intro hh
        have := congrArg List.length hh
        rw [List.length_take, List.length_nil] at this
        omega
      have hne2 : new.drop (new.length / 2) ≠ [] := by
        intro hh
        have := congrArg List.length hh
        rw [List.length_drop, List.length_nil] at this
        omega
      have hss := sorted_append (new.take (new.length / 2)) (new.drop (new.length / 2)) (by rw [List.take_append_drop]; exact hsn)
      have hes1 : Spec.Entries P.len (new.take (new.length / 2)) := fun x hx => hesn x (List.mem_of_mem_take hx)
      have hes2 : Spec.Entries P.len (new.drop (new.length / 2)) := fun x hx => hesn x (List.mem_of_mem_drop hx)
      have hrest : ((new.drop (new.length / 2)).map entryBytes).flatten ≠ [] := by
        cases hd : new.drop (new.length / 2) with
        | nil => exact absurd hd hne2
        | cons x xs =>
          intro hh
          have := congrArg List.length hh
          rw [List.map_cons, List.flatten_cons, entryBytes] at this
          simp only [List.length_append, le_length, List.length_nil] at this
          omega
      have hsome : ∀ (rest : Bytes) (xs : List Entry) (pg : Bytes), Spec.Entries P.len xs → xs ≠ [] → Spec.Sorted P.primary xs →
          (rest ≠ [] ∨ Spec.EndsApart xs) → ∃ p, pack P.primary P.len P.pagesize rest xs pg = .ok p := by
        intro rest xs pg hx1 hx2 hx3 hx4
        obtain ⟨wx, hwx⟩ := isWidth_exists P.len hlen xs hx1
        obtain ⟨r1, r2⟩ := pack_sorted P.primary P.len P.pagesize rest xs pg h0 hlen hx1 hx2 hx3 hx4 wx hwx
        rcases Nat.lt_or_ge (P.pagesize - 30) (xs.length * wx + Spec.stored P.len none xs) with hh | hh
        · exact ⟨_, r2 hh⟩
        · obtain ⟨p, hp⟩ := r1 hh
          exact ⟨_, hp⟩
      obtain ⟨p1, hp1⟩ := hsome _ _ page hes1 hne1 hss.1 (.inl hrest)
      obtain ⟨p2, hp2⟩ := hsome [] _ junk hes2 hne2 hss.2 (.inr (endsApart_drop hend _))
      obtain ⟨l1, hl1⟩ : ∃ x, (new.take (new.length / 2)).getLast? = some x := ⟨_, List.getLast?_eq_some_getLast hne1⟩
      obtain ⟨l2, hl2⟩ : ∃ x, new.getLast? = some x := ⟨_, List.getLast?_eq_some_getLast hne⟩
      refine ⟨p1, p2, l1, l2, ?_, half_of P _ _ page p1 h0 hlen hps hps' hpl hes1 hne1 hss.1 (.inl hrest) hp1,
        half_of P [] _ junk p2 h0 hlen hps hps' hjl hes2 hne2 hss.2 (.inr (endsApart_drop hend _)) hp2, hl1, ?_⟩
      · rw [hunf, hpk, Outcome.ok_bind]
        dsimp only
        rw [hp1, Outcome.ok_bind, hp2, Outcome.ok_bind, hl1, hl2]
      · rw [List.getLast?_drop, if_neg (by omega), hl2]

/-- C60. The two halves of a split page are linked into the chain: the first keeps the page
before, the second the page after, and each has the other as its neighbour. Neither is the
root. -/
theorem halves_linked (fl prev next block block2 : Nat) (p1 p2 : Bytes) (h1 : 12 ≤ p1.length) (h2 : 12 ≤ p2.length)
    (hfl : fl < 65536) (hb : block < 2 ^ 32) (hb2 : block2 < 2 ^ 32) (hpr : prev < 2 ^ 32) (hnx : next < 2 ^ 32) :
    let q := linkHalves fl prev next block block2 p1 p2
    rd q.1 4 4 = .ok prev ∧ rd q.1 8 4 = .ok block2 ∧ rd q.2 4 4 = .ok block ∧ rd q.2 8 4 = .ok next ∧
    ∃ g, rd q.1 0 2 = .ok g ∧ rd q.2 0 2 = .ok g ∧ g < 65536 ∧ g.testBit 0 = false ∧ ∀ i, 0 < i → g.testBit i = fl.testBit i := by
  have hg : fl &&& 65534 < 65536 := Nat.lt_of_le_of_lt Nat.and_le_left hfl
  refine ⟨setHdr_prev (by omega) hpr, setHdr_next (by omega) hb2, setHdr_prev (by omega) hb, setHdr_next (by omega) hnx,
    fl &&& 65534, setHdr_flags hg, setHdr_flags hg, hg, ?_, ?_⟩
  · rw [Nat.testBit_and]
    have : Nat.testBit 65534 0 = false := by decide
    rw [this, Bool.and_false]
  · intro i hi
    rw [Nat.testBit_and]
    rcases Nat.lt_or_ge i 16 with h | h
    · have : ∀ i < 16, 0 < i → Nat.testBit 65534 i = true := by decide
      rw [this i h hi, Bool.and_true]
    · have : fl.testBit i = false := Nat.testBit_lt_two_pow (Nat.lt_of_lt_of_le hfl (Nat.pow_le_pow_right (n := 2) (i := 16) (by decide) h))
      rw [this, Bool.false_and]

end Verif.Index
