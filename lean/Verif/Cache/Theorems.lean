import Verif.Cache.Model
import Verif.Cache.Spec

/-! # Property theorems: page cache (C17, C18, C19) -/

namespace Verif.Cache
open Verif Stream

/-- One API call with what the caller sees. An exception is a refusal that leaves the
database as it was. `now` is the clock. -/
def call (d : Db) (now : Nat) : Spec.Op → Outcome (Db × Spec.Out)
  | .read n =>
    match d.getBlock n now with
    | .ok (b, d') => .ok (d', .page b)
    | .throw => .ok (d, .refused)
    | .ub => .ub
  | .modify n f =>
    match d.putBlock n true f now with
    | .ok d' => .ok (d', .done)
    | .throw => .ok (d, .refused)
    | .ub => .ub
  | .replace n p =>
    match d.putBlock n false (fun _ => p) now with
    | .ok d' => .ok (d', .done)
    | .throw => .ok (d, .refused)
    | .ub => .ub
  | .clean a => .ok (d.garbage a now, .done)
  | .flush =>
    match d.flush with
    | .ok d' => .ok (d', .done)
    | .throw => .ok (d, .refused)
    | .ub => .ub

/-- A history: each call happens at some clock reading. -/
def runCalls (d : Db) : List (Nat × Spec.Op) → Outcome (Db × List Spec.Out)
  | [] => .ok (d, [])
  | (now, op) :: ops => do
    let (d', o) ← call d now op
    let (d'', os) ← runCalls d' ops
    .ok (d'', o :: os)

/-! ## Helper definitions and lemmas -/

/-- Page `n` of a file. -/
def pageAt (file : Bytes) (page n : Nat) : Bytes := (file.drop (n * page)).take page

/-- The contents a user sees, from the cache and the file. -/
def logical (file : Bytes) (page : Nat) : Nat → List (Option Blk) → List Bytes
  | _, [] => []
  | n, none :: bs => pageAt file page n :: logical file page (n + 1) bs
  | n, some b :: bs => b.data :: logical file page (n + 1) bs

/-- Consistency of one cache slot with the file. -/
def SlotOk (file : Bytes) (page i : Nat) : Option Blk → Prop
  | none => (i + 1) * page ≤ file.length
  | some b => b.data.length = page ∧
      (b.changed = false → (i + 1) * page ≤ file.length ∧ pageAt file page i = b.data)

def AllOk (file : Bytes) (page : Nat) : Nat → List (Option Blk) → Prop
  | _, [] => True
  | n, b :: bs => SlotOk file page n b ∧ AllOk file page (n + 1) bs

structure Inv (d : Db) (s : Spec.State) : Prop where
  page16 : 16 ≤ d.c.page
  nonempty : 0 < d.length
  len : d.c.blocks.length = d.length
  size : d.c.fs.size = d.length * d.c.page
  good : d.c.fs.failed = false
  flen : d.c.fs.file.length ≤ d.length * d.c.page
  ok : AllOk d.c.fs.file d.c.page 0 d.c.blocks
  pages : logical d.c.fs.file d.c.page 0 d.c.blocks = s.pages
  disk : d.c.fs.file = s.disk

theorem length_logical (file : Bytes) (page n : Nat) (bs : List (Option Blk)) :
    (logical file page n bs).length = bs.length := by
  induction bs generalizing n with
  | nil => rfl
  | cons b bs ih => cases b <;> simp [logical, ih]

theorem logical_get (file : Bytes) (page : Nat) (n i : Nat) (bs : List (Option Blk)) :
    (logical file page n bs)[i]? = (bs[i]?).map (fun b => match b with
      | some b => b.data | none => pageAt file page (n + i)) := by
  induction bs generalizing n i with
  | nil => simp [logical]
  | cons b bs ih =>
    cases i with
    | zero => cases b <;> simp [logical]
    | succ i => cases b <;> simp [logical, ih, show n + 1 + i = n + (i + 1) by omega]

theorem logical_set (file : Bytes) (page : Nat) (n i : Nat) (bs : List (Option Blk)) (b : Blk) :
    logical file page n (bs.set i (some b)) = (logical file page n bs).set i b.data := by
  induction bs generalizing n i with
  | nil => simp [logical]
  | cons c bs ih =>
    cases i with
    | zero => cases c <;> simp [logical]
    | succ i => cases c <;> simp [logical, ih]

theorem logical_append (file : Bytes) (page : Nat) (n : Nat) (bs : List (Option Blk)) (b : Blk) :
    logical file page n (bs ++ [some b]) = logical file page n bs ++ [b.data] := by
  induction bs generalizing n with
  | nil => simp [logical]
  | cons c bs ih => cases c <;> simp [logical, ih]

theorem allOk_get (file : Bytes) (page n i : Nat) (bs : List (Option Blk)) (b : Option Blk)
    (h : AllOk file page n bs) (hb : bs[i]? = some b) : SlotOk file page (n + i) b := by
  induction bs generalizing n i with
  | nil => simp at hb
  | cons c bs ih =>
    cases i with
    | zero => simp at hb; subst hb; exact h.1
    | succ i =>
      have := ih (n + 1) i h.2 (by simpa using hb)
      rwa [show n + 1 + i = n + (i + 1) by omega] at this

theorem allOk_set (file : Bytes) (page n i : Nat) (bs : List (Option Blk)) (b : Option Blk)
    (h : AllOk file page n bs) (hb : SlotOk file page (n + i) b) : AllOk file page n (bs.set i b) := by
  induction bs generalizing n i with
  | nil => simp [AllOk]
  | cons c bs ih =>
    cases i with
    | zero => exact ⟨hb, h.2⟩
    | succ i => exact ⟨h.1, ih (n + 1) i h.2 (by rwa [show n + 1 + i = n + (i + 1) by omega])⟩

theorem allOk_append (file : Bytes) (page n : Nat) (bs : List (Option Blk)) (b : Option Blk)
    (h : AllOk file page n bs) (hb : SlotOk file page (n + bs.length) b) :
    AllOk file page n (bs ++ [b]) := by
  induction bs generalizing n with
  | nil => exact ⟨by simpa using hb, trivial⟩
  | cons c bs ih =>
    exact ⟨h.1, ih (n + 1) h.2 (by
      simp only [List.length_cons] at hb
      rwa [show n + 1 + bs.length = n + (bs.length + 1) by omega])⟩

theorem set_self {α} (l : List α) (i : Nat) (x : α) (h : l[i]? = some x) : l.set i x = l := by
  apply List.ext_getElem?
  intro j
  rw [List.getElem?_set]
  split
  · subst_vars
    split
    · exact h.symm
    · rw [List.getElem?_eq_none (by omega)] at h; simp at h
  · rfl

theorem pageAt_length (file : Bytes) (page n : Nat) (h : (n + 1) * page ≤ file.length) :
    (pageAt file page n).length = page := by
  unfold pageAt
  rw [Nat.add_mul] at h
  simp
  omega

/-- Reading an in-file page succeeds and only moves the position. -/
theorem readPage_ok (fs : FileS) (page n : Nat) (h : (n + 1) * page ≤ fs.file.length)
    (hs : n * page ≤ fs.size) :
    readPage fs page n = .ok ({ fs with pos := n * page + page, failed := false }, pageAt fs.file page n) := by
  have hl := pageAt_length fs.file page n h
  unfold pageAt at hl
  unfold readPage FileS.seek FileS.read
  rw [if_neg (by omega)]
  simp only [Outcome.ok_bind, hl, Nat.lt_irrefl, decide_false, if_false]
  rfl

theorem mul_le_size (d : Db) (s : Spec.State) (h : Inv d s) (n : Nat) (hn : n ≤ d.length) :
    n * d.c.page ≤ d.c.fs.size := by
  rw [h.size]; exact Nat.mul_le_mul_right _ hn

theorem read_step (d : Db) (s : Spec.State) (h : Inv d s) (n now : Nat) (hn : n < d.length) :
    ∃ p d', s.pages[n]? = some p ∧ d.getBlock n now = .ok (p, d') ∧ Inv d' s := by
  have hl := h.len
  have hg := logical_get d.c.fs.file d.c.page 0 n d.c.blocks
  rw [h.pages] at hg
  unfold Db.getBlock
  rw [if_neg (by omega)]
  unfold getBlock
  have hb : d.c.blocks[n]? = some d.c.blocks[n] := List.getElem?_eq_getElem (by omega)
  generalize d.c.blocks[n] = b at hb
  rw [hb] at hg
  cases b with
  | some b =>
    simp only [hb, Outcome.ok_bind]
    refine ⟨b.data, _, by simpa using hg, rfl, ?_⟩
    have hok := allOk_get _ _ 0 n _ _ h.ok hb
    refine ⟨h.page16, h.nonempty, by simpa using hl, h.size, h.good, h.flen, ?_, ?_, h.disk⟩
    · exact allOk_set _ _ 0 n _ _ h.ok hok
    · simp only [logical_set, h.pages]
      exact set_self _ _ _ (by simpa using hg)
  | none =>
    have hok := allOk_get _ _ 0 n _ _ h.ok hb
    simp only [Nat.zero_add] at hok
    simp only [hb, create, Bool.false_eq_true, if_false]
    rw [readPage_ok _ _ _ hok (mul_le_size d s h n (by omega))]
    simp only [Outcome.ok_bind]
    refine ⟨pageAt d.c.fs.file d.c.page n, _, by simpa using hg, rfl, ?_⟩
    refine ⟨h.page16, h.nonempty, by simpa using hl, h.size, rfl, h.flen, ?_, ?_, h.disk⟩
    · exact allOk_set _ _ 0 n _ _ h.ok (by
        refine ⟨pageAt_length _ _ _ hok, fun _ => ?_⟩
        simp only [Nat.zero_add]
        exact ⟨hok, trivial⟩)
    · simp only [logical_set, h.pages]
      exact set_self _ _ _ (by simpa using hg)

/-- Handing out an existing page for writing. -/
theorem put_existing (d : Db) (s : Spec.State) (h : Inv d s) (n now : Nat) (read : Bool)
    (f : Bytes → Bytes) (hn : n < d.length)
    (hf : ∀ p, p.length = d.c.page → (f p).length = d.c.page)
    (hr : read = false → ∀ p q, f p = f q) :
    ∃ p c', s.pages[n]? = some p ∧ putBlock d.c n read f now = .ok (some (), c') ∧
      Inv { d with c := c' } { s with pages := s.pages.set n (f p) } := by
  have hl := h.len
  have hg := logical_get d.c.fs.file d.c.page 0 n d.c.blocks
  rw [h.pages] at hg
  unfold putBlock
  rw [if_neg (by omega)]
  simp only [show ¬ n = d.c.blocks.length by omega, if_false]
  have hb : d.c.blocks[n]? = some d.c.blocks[n] := List.getElem?_eq_getElem (by omega)
  generalize d.c.blocks[n] = b at hb
  rw [hb] at hg
  have hok := allOk_get _ _ 0 n _ _ h.ok hb
  cases b with
  | some b =>
    simp only [hb]
    refine ⟨b.data, _, by simpa using hg, rfl, ?_⟩
    refine ⟨h.page16, h.nonempty, by simpa using hl, h.size, h.good, h.flen, ?_, ?_, h.disk⟩
    · exact allOk_set _ _ 0 n _ _ h.ok ⟨hf _ hok.1, by simp⟩
    · simp only [logical_set, h.pages]
  | none =>
    simp only [Nat.zero_add] at hok
    have hpl := pageAt_length _ _ _ hok
    have hdiv : ¬ d.c.fs.size / d.c.page ≤ n := by
      have h16 := h.page16
      rw [h.size, Nat.mul_div_cancel _ (by omega)]
      omega
    simp only [hb, create, if_true, hdiv, if_false]
    cases read with
    | true =>
      simp only [if_true]
      rw [readPage_ok _ _ _ hok (mul_le_size d s h n (by omega))]
      simp only [Outcome.ok_bind]
      refine ⟨pageAt d.c.fs.file d.c.page n, _, by simpa using hg, rfl, ?_⟩
      refine ⟨h.page16, h.nonempty, by simpa using hl, h.size, rfl, h.flen, ?_, ?_, h.disk⟩
      · exact allOk_set _ _ 0 n _ _ h.ok ⟨hf _ hpl, by simp⟩
      · simp only [logical_set, h.pages]
    | false =>
      simp only [Bool.false_eq_true, if_false, Outcome.ok_bind]
      refine ⟨pageAt d.c.fs.file d.c.page n, _, by simpa using hg, rfl, ?_⟩
      refine ⟨h.page16, h.nonempty, by simpa using hl, h.size, h.good, h.flen, ?_, ?_, h.disk⟩
      · exact allOk_set _ _ 0 n _ _ h.ok ⟨hf _ (by simp), by simp⟩
      · simp only [logical_set, h.pages]
        rw [hr rfl (List.replicate d.c.page 0) (pageAt d.c.fs.file d.c.page n)]

theorem setLength_length (n page : Nat) (p : Bytes) (h : 16 ≤ page) (hp : p.length = page) :
    (setLength n p).length = page := by
  unfold setLength le32
  simp
  omega

theorem putLength_eq (n : Nat) : setLength n = Spec.putLength n := by
  funext p
  unfold setLength Spec.putLength le32
  congr 2
  simp [List.range, List.range.loop]

/-- `modify` of the first element is `set`. -/
theorem modify_zero {α} (l : List α) (g : α → α) (p : α) (h : l[0]? = some p) :
    l.modify 0 g = l.set 0 (g p) := by
  cases l with
  | nil => simp at h
  | cons a l => simp at h; subst h; simp [List.modify]

/-- The page count stored in page 0 while appending. -/
theorem header_step (d : Db) (s : Spec.State) (h : Inv d s) (now : Nat) :
    ∃ p0 fs' b', s.pages[0]? = some p0 ∧
      putBlock { d.c with fs := d.c.fs.setSize (d.c.fs.size + d.c.page) } 0 true
        (setLength (d.length + 1)) now
        = .ok (some (), { d.c with fs := fs', blocks := d.c.blocks.set 0 (some b') }) ∧
      b'.data = setLength (d.length + 1) p0 ∧ b'.data.length = d.c.page ∧ b'.changed = true ∧
      fs'.file = d.c.fs.file ∧ fs'.size = (d.length + 1) * d.c.page ∧ fs'.failed = false := by
  have h16 := h.page16
  have hn0 := h.nonempty
  -- page 0
  have hb0 : d.c.blocks[0]? = some (d.c.blocks[0]'(by rw [h.len]; omega)) :=
    List.getElem?_eq_getElem (by rw [h.len]; omega)
  generalize hb : d.c.blocks[0]'(by rw [h.len]; omega) = b at hb0
  have hok := allOk_get _ _ 0 0 _ _ h.ok hb0
  have hg := logical_get d.c.fs.file d.c.page 0 0 d.c.blocks
  rw [h.pages, hb0] at hg
  unfold putBlock
  have hne : ¬ (0 : Nat) = d.c.blocks.length := by rw [h.len]; omega
  simp only [show ¬ (0 : Nat) > d.c.blocks.length by omega, if_false, hne]
  cases b with
  | some b =>
    simp only [hb0]
    refine ⟨b.data, _, ⟨setLength (d.length + 1) b.data, true, now⟩, by simpa using hg, rfl, rfl, ?_, rfl, rfl, ?_, h.good⟩
    · exact setLength_length _ _ _ h16 hok.1
    · simp [FileS.setSize, h.size, Nat.add_mul]
  | none =>
    simp only [Nat.zero_add, Nat.one_mul] at hok
    have hok' : (0 + 1) * d.c.page ≤ d.c.fs.file.length := by simpa [SlotOk] using hok
    have hdiv : ¬ (d.c.fs.setSize (d.c.fs.size + d.c.page)).size / d.c.page ≤ 0 := by
      simp only [FileS.setSize]
      have : 1 ≤ (d.c.fs.size + d.c.page) / d.c.page := by
        rw [Nat.le_div_iff_mul_le (by omega)]; omega
      omega
    simp only [hb0, create, if_true, hdiv, if_false]
    rw [readPage_ok _ _ _ (by simpa [FileS.setSize] using hok') (by simp)]
    simp only [Outcome.ok_bind]
    refine ⟨pageAt d.c.fs.file d.c.page 0, _, ⟨setLength (d.length + 1) (pageAt d.c.fs.file d.c.page 0), true, now⟩,
      by simpa using hg, rfl, rfl, ?_, rfl, rfl, ?_, rfl⟩
    · exact setLength_length _ _ _ h16 (pageAt_length _ _ _ hok')
    · simp [FileS.setSize, h.size, Nat.add_mul]

theorem append_step (d : Db) (s : Spec.State) (h : Inv d s) (now : Nat) (p : Bytes)
    (hp : p.length = d.c.page) :
    ∃ d', d.putBlock d.length false (fun _ => p) now = .ok d' ∧ d'.c.page = d.c.page ∧
      d'.length = d.length + 1 ∧
      Inv d' { s with pages := s.pages.modify 0 (Spec.putLength (d.length + 1)) ++ [p] } := by
  have h16 := h.page16
  have hn0 := h.nonempty
  -- the state after SetSize, still at the old length as far as the cache is concerned
  unfold Db.putBlock
  rw [if_neg (by omega)]
  simp only [if_true]
  obtain ⟨p0, fs', b', hp0, e, hd', hdl, hch, hfile, hsize, hfail⟩ := header_step d s h now
  rw [e]
  simp only [Outcome.ok_bind]
  -- the new page
  have hdiv : ¬ fs'.size / d.c.page ≤ d.length := by
    rw [hsize, Nat.mul_div_cancel _ (by omega)]; omega
  have hblk : ((d.c.blocks.set 0 (some b')) ++ [none])[d.length]? = some none := by
    rw [List.getElem?_append_right (by simp [h.len])]
    simp [h.len]
  have e2 : putBlock { d.c with fs := fs', blocks := d.c.blocks.set 0 (some b') } d.length false
      (fun _ => p) now
      = .ok (some (), { d.c with fs := fs', blocks := (d.c.blocks.set 0 (some b')) ++ [some ⟨p, true, now⟩] }) := by
    unfold putBlock
    simp only [List.length_set, h.len, show ¬ d.length > d.length by omega, if_false, if_true, hblk,
      create, hdiv, Bool.false_eq_true, Outcome.ok_bind]
    congr 3
    have : d.length = (d.c.blocks.set 0 (some b')).length := by simp [h.len]
    rw [this, List.set_append_right _ _ (Nat.le_refl _)]
    simp
  rw [e2]
  simp only [Outcome.ok_bind]
  refine ⟨_, rfl, rfl, rfl, ?_⟩
  refine ⟨h16, by simp, by simp [h.len], hsize, hfail, ?_, ?_, ?_, ?_⟩
  · simp only [hfile]
    exact Nat.le_trans h.flen (Nat.mul_le_mul_right _ (by omega))
  · simp only [hfile]
    apply allOk_append
    · exact allOk_set _ _ 0 0 _ _ h.ok ⟨hdl, by simp [hch]⟩
    · exact ⟨hp, by simp⟩
  · simp only [hfile, logical_append, logical_set, h.pages, hd']
    rw [modify_zero _ _ _ hp0, putLength_eq]
  · simp only [hfile]; exact h.disk

theorem garbage_step (d : Db) (s : Spec.State) (h : Inv d s) (a : Bool) (now : Nat) :
    Inv (d.garbage a now) s := by
  have key : ∀ (bs : List (Option Blk)) (n : Nat), AllOk d.c.fs.file d.c.page n bs →
      AllOk d.c.fs.file d.c.page n (bs.map fun
        | some b => if dies a now b then none else some b
        | none => none) ∧
      logical d.c.fs.file d.c.page n (bs.map fun
        | some b => if dies a now b then none else some b
        | none => none) = logical d.c.fs.file d.c.page n bs := by
    intro bs
    induction bs with
    | nil => intro n _; exact ⟨trivial, rfl⟩
    | cons b bs ih =>
      intro n hok
      obtain ⟨i1, i2⟩ := ih (n + 1) hok.2
      cases b with
      | none => exact ⟨⟨hok.1, i1⟩, by simp only [List.map_cons, logical, i2]⟩
      | some b =>
        simp only [List.map_cons]
        by_cases hd : dies a now b = true
        · have hc : b.changed = false := by
            unfold dies at hd
            simp at hd
            exact hd.1
          obtain ⟨h1, h2⟩ := hok.1.2 hc
          rw [if_pos hd]
          exact ⟨⟨h1, i1⟩, by simp only [logical, i2, h2]⟩
        · rw [if_neg hd]
          exact ⟨⟨hok.1, i1⟩, by simp only [logical, i2]⟩
  obtain ⟨k1, k2⟩ := key d.c.blocks 0 h.ok
  exact ⟨h.page16, h.nonempty, by simpa [Db.garbage, garbage] using h.len, h.size, h.good, h.flen, k1,
    k2.trans h.pages, h.disk⟩

theorem pageAt_congr (f g : Bytes) (page n : Nat) (h : f.drop (n * page) = g.drop (n * page)) :
    pageAt f page n = pageAt g page n := by
  unfold pageAt; rw [h]

theorem drop_more (f g : Bytes) (a b : Nat) (h : f.drop a = g.drop a) (hab : a ≤ b) :
    f.drop b = g.drop b := by
  have := congrArg (List.drop (b - a)) h
  simpa [List.drop_drop, Nat.add_sub_cancel' hab] using this

theorem logical_congr (f g : Bytes) (page : Nat) (bs : List (Option Blk)) (n : Nat)
    (h : f.drop (n * page) = g.drop (n * page)) : logical f page n bs = logical g page n bs := by
  induction bs generalizing n with
  | nil => rfl
  | cons b bs ih =>
    have h' : f.drop ((n + 1) * page) = g.drop ((n + 1) * page) :=
      drop_more _ _ _ _ h (Nat.mul_le_mul_right _ (by omega))
    cases b with
    | none => simp only [logical, ih (n + 1) h', pageAt_congr _ _ _ _ h]
    | some b => simp only [logical, ih (n + 1) h']

theorem allOk_congr (f g : Bytes) (page : Nat) (bs : List (Option Blk)) (n : Nat)
    (h : f.drop (n * page) = g.drop (n * page)) (hl : f.length ≤ g.length) (ha : AllOk f page n bs) :
    AllOk g page n bs := by
  induction bs generalizing n with
  | nil => trivial
  | cons b bs ih =>
    refine ⟨?_, ih (n + 1) (drop_more _ _ _ _ h (Nat.mul_le_mul_right _ (by omega))) ha.2⟩
    have h1 := ha.1
    cases b with
    | none => simp only [SlotOk] at h1 ⊢; omega
    | some b =>
      refine ⟨h1.1, fun hc => ?_⟩
      obtain ⟨h2, h3⟩ := h1.2 hc
      exact ⟨by omega, by rw [← h3]; exact (pageAt_congr _ _ _ _ h).symm⟩

/-- Every page written in place. -/
theorem overlay_page (file : Bytes) (page n : Nat) (data : Bytes) (hd : data.length = page)
    (hp : 0 < page) (hn : n * page ≤ file.length) :
    overlay file (n * page) data = file.take (n * page) ++ data ++ file.drop ((n + 1) * page) := by
  unfold overlay
  have : data ≠ [] := by rintro rfl; simp at hd; omega
  simp only [List.isEmpty_iff, this, if_false]
  rw [show max (n * page) file.length = file.length by omega, hd]
  unfold resizeB
  simp [Nat.add_mul]

def allClean (bs : List (Option Blk)) : Prop := ∀ b ∈ bs, ∀ c, b = some c → c.changed = false

theorem flushLoop_spec (page : Nat) (hpage : 0 < page) (bs : List (Option Blk)) (fs : FileS) (n : Nat)
    (hok : AllOk fs.file page n bs) (hn : n * page ≤ fs.file.length)
    (hlen : fs.file.length ≤ (n + bs.length) * page) (hsize : fs.size = (n + bs.length) * page)
    (hgood : fs.failed = false) :
    ∃ fs' bs', flushLoop page fs n bs = .ok (fs', bs') ∧
      fs'.file = fs.file.take (n * page) ++ (logical fs.file page n bs).flatten ∧
      fs'.file.length = (n + bs.length) * page ∧
      bs'.length = bs.length ∧ AllOk fs'.file page n bs' ∧
      logical fs'.file page n bs' = logical fs.file page n bs ∧ fs'.size = fs.size ∧ fs'.failed = false := by
  induction bs generalizing fs n with
  | nil =>
    simp only [List.length_nil, Nat.add_zero] at hlen
    refine ⟨fs, [], rfl, ?_, ?_, rfl, trivial, rfl, rfl, hgood⟩
    · simp only [logical, List.flatten_nil, List.append_nil]
      rw [List.take_of_length_le (by omega)]
    · simp only [List.length_nil, Nat.add_zero]; omega
  | cons b bs ih =>
    have hn1 : (n + 1) * page = n * page + page := by rw [Nat.add_mul, Nat.one_mul]
    have hlen' : n + (b :: bs).length = (n + 1) + bs.length := by simp; omega
    rw [hlen'] at hlen hsize
    cases b with
    | none =>
      have h1 : (n + 1) * page ≤ fs.file.length := hok.1
      obtain ⟨fs', bs', e, i1, i2, i3, i4, i5, i6, i7⟩ := ih fs (n + 1) hok.2 h1 hlen hsize hgood
      refine ⟨fs', none :: bs', by simp only [flushLoop, e, Outcome.ok_bind], ?_, ?_, by simp [i3], ⟨?_, i4⟩, ?_, i6, i7⟩
      · rw [i1, hn1, List.take_add]
        simp only [logical, List.flatten_cons, pageAt, hn1, List.append_assoc]
      · rw [i2, hlen']
      · simp only [SlotOk]; rw [i2]; exact Nat.mul_le_mul_right _ (by omega)
      · simp only [logical, i5]
        congr 1
        unfold pageAt
        rw [i1, hn1, List.take_add]
        rw [List.append_assoc, List.drop_append_of_le_length (by simp; omega)]
        rw [List.drop_of_length_le (by simp; omega)]
        rw [List.nil_append, List.take_append_of_le_length (by simp; omega)]
        rw [List.take_take, Nat.min_self]
    | some b =>
      by_cases hc : b.changed = true
      · -- written out
        have hw : writeBlk fs page n b = .ok
            ({ file := overlay fs.file (n * page) b.data, pos := n * page + b.data.length,
               size := fs.size, failed := false }, { b with changed := false }) := by
          unfold writeBlk FileS.seek FileS.write
          have hsz : n * page + b.data.length ≤ fs.size := by
            rw [hok.1.1, hsize, ← hn1]
            exact Nat.mul_le_mul_right _ (by omega)
          simp only [hc, Bool.not_true, Bool.false_eq_true, if_false, hgood]
          rw [if_neg (by omega)]
          simp only [Outcome.ok_bind, hgood, Bool.false_eq_true, if_false]
          rw [if_neg (by omega)]
        have hov := overlay_page fs.file page n b.data hok.1.1 hpage hn
        have hdrop : (overlay fs.file (n * page) b.data).drop ((n + 1) * page) = fs.file.drop ((n + 1) * page) := by
          rw [hov, List.drop_append_of_le_length (by simp [hok.1.1]; omega)]
          rw [List.drop_of_length_le (by simp [hok.1.1]; omega)]
          simp
        have hovl : (overlay fs.file (n * page) b.data).length = max fs.file.length ((n + 1) * page) := by
          rw [hov]; simp [hok.1.1]; omega
        obtain ⟨fs', bs', e, i1, i2, i3, i4, i5, i6, i7⟩ := ih
          { file := overlay fs.file (n * page) b.data, pos := n * page + b.data.length,
            size := fs.size, failed := false } (n + 1)
          (allOk_congr _ _ _ _ _ hdrop.symm (by simp only [hovl]; omega) hok.2)
          (by simp only [hovl]; omega)
          (by
            simp only [hovl]
            have : (n + 1) * page ≤ (n + 1 + bs.length) * page := Nat.mul_le_mul_right _ (by omega)
            omega)
          hsize rfl
        simp only at i1 i5 i6
        rw [logical_congr _ _ _ _ _ hdrop] at i1 i5
        have htake : (overlay fs.file (n * page) b.data).take ((n + 1) * page)
            = fs.file.take (n * page) ++ b.data := by
          rw [hov, List.take_append_of_le_length (by simp [hok.1.1]; omega)]
          rw [List.take_of_length_le (by simp [hok.1.1]; omega)]
        rw [htake] at i1
        refine ⟨fs', some { b with changed := false } :: bs', by simp only [flushLoop, hw, e, Outcome.ok_bind], ?_, ?_, by simp [i3],
          ⟨?_, i4⟩, ?_, i6, i7⟩
        · rw [i1]; simp only [logical, List.flatten_cons, List.append_assoc]
        · rw [i2, hlen']
        · refine ⟨hok.1.1, fun _ => ⟨?_, ?_⟩⟩
          · rw [i2]; exact Nat.mul_le_mul_right _ (by omega)
          · unfold pageAt
            rw [i1, List.append_assoc, List.drop_append_of_le_length (by simp; omega)]
            rw [List.drop_of_length_le (by simp; omega)]
            rw [List.nil_append, List.take_append_of_le_length (by rw [hok.1.1]; exact Nat.le_refl _)]
            exact List.take_of_length_le (by rw [hok.1.1]; exact Nat.le_refl _)
        · simp only [logical, i5]
      · -- clean
        have hc' : b.changed = false := by simpa using hc
        obtain ⟨h1, h2⟩ := hok.1.2 hc'
        have hw : writeBlk fs page n b = .ok (fs, b) := by simp [writeBlk, hc']
        obtain ⟨fs', bs', e, i1, i2, i3, i4, i5, i6, i7⟩ := ih fs (n + 1) hok.2 h1 hlen hsize hgood
        have hpg : pageAt fs'.file page n = b.data := by
          rw [← h2]
          unfold pageAt
          rw [i1, hn1, List.take_add]
          rw [List.append_assoc, List.drop_append_of_le_length (by simp; omega)]
          rw [List.drop_of_length_le (by simp; omega)]
          rw [List.nil_append, List.take_append_of_le_length (by simp; omega)]
          rw [List.take_take, Nat.min_self]
        refine ⟨fs', some b :: bs', by simp only [flushLoop, hw, e, Outcome.ok_bind], ?_, ?_, by simp [i3],
          ⟨⟨hok.1.1, fun _ => ⟨?_, hpg⟩⟩, i4⟩, ?_, i6, i7⟩
        · rw [i1, hn1, List.take_add]
          simp only [logical, List.flatten_cons, List.append_assoc]
          rw [← h2]; rfl
        · rw [i2, hlen']
        · rw [i2]; exact Nat.mul_le_mul_right _ (by omega)
        · simp only [logical, i5]

theorem flush_step (d : Db) (s : Spec.State) (h : Inv d s) :
    ∃ d', d.flush = .ok d' ∧ d'.c.page = d.c.page ∧ Inv d' { s with disk := s.pages.flatten } := by
  have h16 := h.page16
  obtain ⟨fs', bs', e, i1, i2, i3, i4, i5, i6, i7⟩ := flushLoop_spec d.c.page (by omega) d.c.blocks d.c.fs 0
    h.ok (by simp) (by simpa [h.len] using h.flen) (by simpa [h.len] using h.size) h.good
  have hl : d.c.blocks.length = d.length := h.len
  refine ⟨{ d with c := { d.c with fs := fs', blocks := bs' } },
    by simp only [Db.flush, flush, e, Outcome.ok_bind], rfl, ?_⟩
  refine ⟨h16, h.nonempty, by simp only; rw [i3, hl], by rw [i6]; exact h.size, i7, ?_, i4, i5.trans h.pages, ?_⟩
  · simp only; rw [i2, hl]; simp
  · simp only; rw [i1, h.pages]; simp

/-! ## Refinement -/

theorem call_refines (d : Db) (s : Spec.State) (h : Inv d s) (now : Nat) (op : Spec.Op)
    (hw : match op with
      | .modify n f => (∀ p : Bytes, p.length = d.c.page → (f p).length = d.c.page) ∧ n ≠ s.pages.length
      | .replace _ p => p.length = d.c.page
      | _ => True) :
    ∃ d', call d now op = .ok (d', (Spec.step s op).2) ∧ d'.c.page = d.c.page ∧
      Inv d' (Spec.step s op).1 := by
  have hpl : s.pages.length = d.length := by rw [← h.pages, length_logical, h.len]
  cases op with
  | read n =>
    simp only [call, Spec.step]
    by_cases hn : n < d.length
    · obtain ⟨p, d', h1, h2, h3⟩ := read_step d s h n now hn
      refine ⟨d', by simp only [h1, h2], ?_, by simpa only [h1] using h3⟩
      revert h2
      unfold Db.getBlock getBlock
      rw [if_neg (by omega)]
      split <;> (try simp)
      · rintro rfl rfl; rfl
      · cases create d.c.fs d.c.page n false true with
        | ok r => simp; rintro rfl rfl; rfl
        | throw => simp
        | ub => simp
    · have : s.pages[n]? = none := List.getElem?_eq_none (by omega)
      refine ⟨d, ?_, rfl, by simpa only [this] using h⟩
      simp only [this, Db.getBlock]
      rw [if_pos (by omega)]
  | modify n f =>
    simp only at hw
    simp only [call, Spec.step]
    by_cases hn : n < d.length
    · obtain ⟨p, c', h1, h2, h3⟩ := put_existing d s h n now true f hn hw.1 (by simp)
      have hpg : c'.page = d.c.page := by
        revert h2
        unfold putBlock
        rw [if_neg (by rw [h.len]; omega)]
        simp only
        split <;> (try simp)
        · rintro rfl; rfl
        · cases create d.c.fs d.c.page n true true with
          | ok r => simp; rintro rfl; rfl
          | throw => simp
          | ub => simp
      refine ⟨{ d with c := c' }, ?_, hpg, by simpa only [h1] using h3⟩
      simp only [h1, Db.putBlock]
      rw [if_neg (by omega)]
      simp only [show ¬ n = d.length by omega, if_false, Outcome.ok_bind, h2]
    · have : s.pages[n]? = none := List.getElem?_eq_none (by omega)
      refine ⟨d, ?_, rfl, by simpa only [this] using h⟩
      simp only [this, Db.putBlock]
      rw [if_pos (by omega)]
  | replace n p =>
    simp only at hw
    simp only [call, Spec.step]
    by_cases hn : n < d.length
    · obtain ⟨q, c', h1, h2, h3⟩ := put_existing d s h n now false (fun _ => p) hn (fun _ _ => hw) (by simp)
      have hpg : c'.page = d.c.page := by
        revert h2
        unfold putBlock
        rw [if_neg (by rw [h.len]; omega)]
        simp only
        split <;> (try simp)
        · rintro rfl; rfl
        · cases create d.c.fs d.c.page n true false with
          | ok r => simp; rintro rfl; rfl
          | throw => simp
          | ub => simp
      rw [if_pos (by omega)]
      refine ⟨{ d with c := c' }, ?_, hpg, h3⟩
      simp only [Db.putBlock]
      rw [if_neg (by omega)]
      simp only [show ¬ n = d.length by omega, if_false, Outcome.ok_bind, h2]
    · rw [if_neg (by omega)]
      by_cases hn' : n = d.length
      · rw [if_pos (by omega)]
        subst hn'
        obtain ⟨d', h1, h2, h3, h4⟩ := append_step d s h now p hw
        exact ⟨d', by simp only [h1], h2, h4⟩
      · rw [if_neg (by omega)]
        refine ⟨d, ?_, rfl, h⟩
        simp only [Db.putBlock]
        rw [if_pos (by omega)]
  | clean a => exact ⟨_, rfl, rfl, garbage_step d s h a now⟩
  | flush =>
    obtain ⟨d', h1, h2, h3⟩ := flush_step d s h
    exact ⟨d', by simp only [call, h1, Spec.step], h2, h3⟩

theorem run_refines (ops : List (Nat × Spec.Op)) (d : Db) (s : Spec.State) (h : Inv d s)
    (hw : Spec.wellUsed d.c.page s (ops.map (·.2))) :
    ∃ d', runCalls d ops = .ok (d', (Spec.run s (ops.map (·.2))).2) ∧ d'.c.page = d.c.page ∧
      Inv d' (Spec.run s (ops.map (·.2))).1 := by
  induction ops generalizing d s with
  | nil => exact ⟨d, rfl, rfl, h⟩
  | cons o ops ih =>
    obtain ⟨now, op⟩ := o
    obtain ⟨d1, e1, p1, h1⟩ := call_refines d s h now op hw.1
    obtain ⟨d2, e2, p2, h2⟩ := ih d1 _ h1 (by rw [p1]; exact hw.2)
    exact ⟨d2, by simp only [runCalls, e1, e2, Outcome.ok_bind]; rfl, by rw [p2, p1], h2⟩

/-- The pages of a file. -/
def pagesOf (file : Bytes) (page : Nat) : List Bytes :=
  (List.range (file.length / page)).map (fun n => (file.drop (n * page)).take page)

theorem open_inv (file : Bytes) (page : Nat) (h16 : 16 ≤ page) (hm : file.length % page = 0)
    (hne : file ≠ []) : Inv (Db.open file page) ⟨pagesOf file page, file⟩ := by
  have hfl : file.length / page * page = file.length := Nat.div_mul_cancel (Nat.dvd_of_mod_eq_zero hm)
  have hpos : 0 < file.length := List.length_pos_iff.mpr hne
  have hq : 0 < file.length / page := by
    rcases Nat.eq_zero_or_pos (file.length / page) with h | h
    · rw [h] at hfl; omega
    · exact h
  have hall : ∀ k n, (n + k) * page ≤ file.length → AllOk file page n (List.replicate k none) := by
    intro k
    induction k with
    | zero => intro n _; trivial
    | succ k ih =>
      intro n hn
      refine ⟨?_, ih (n + 1) (by rwa [show n + 1 + k = n + (k + 1) by omega])⟩
      exact Nat.le_trans (Nat.mul_le_mul_right _ (by omega)) hn
  have hlog : ∀ k n, logical file page n (List.replicate k none)
      = (List.range k).map (fun i => pageAt file page (n + i)) := by
    intro k
    induction k with
    | zero => intro n; rfl
    | succ k ih =>
      intro n
      rw [List.range_succ_eq_map]
      simp only [List.replicate_succ, logical, ih, List.map_cons, List.map_map, Nat.add_zero]
      congr 1
      apply List.map_congr_left
      intro i _
      simp [show n + 1 + i = n + (i + 1) by omega]
  refine ⟨h16, hq, by simp [Db.open], ?_, rfl, ?_, ?_, ?_, rfl⟩
  · simp [Db.open, FileS.open, hfl]
  · simp [Db.open, FileS.open, hfl]
  · exact hall _ _ (by simp [hfl])
  · simp only [Db.open, FileS.open, hlog, pagesOf, pageAt, Nat.zero_add]

/-! ## Property theorems -/

/-- **C17.** Open a database file (a whole number of pages of at least 16 bytes) and
perform any history of page reads, page modifications, page replacements, page
appends, cache clean-ups and flushes, at any clock readings: every call does what
the same call does on a plain array of pages, in particular every read returns
the bytes last written to the page. The history never runs into undefined
behaviour. -/
theorem cache_transparent (file : Bytes) (page : Nat) (h16 : 16 ≤ page) (hm : file.length % page = 0)
    (hne : file ≠ []) (ops : List (Nat × Spec.Op))
    (hw : Spec.wellUsed page ⟨pagesOf file page, file⟩ (ops.map (·.2))) :
    ∃ d, runCalls (Db.open file page) ops =
      .ok (d, (Spec.run ⟨pagesOf file page, file⟩ (ops.map (·.2))).2) := by
  obtain ⟨d, e, _, _⟩ := run_refines ops _ _ (open_inv file page h16 hm hne) hw
  exact ⟨d, e⟩

/-- **C18.** After any such history the bytes of the file are what the specification
says survives a crash: the pages as of the last flush (the opened file if there
was none). In particular clean-ups and reads write nothing and lose nothing, and
right after a flush the file is the concatenation of all pages. -/
theorem disk_is_last_flush (file : Bytes) (page : Nat) (h16 : 16 ≤ page) (hm : file.length % page = 0)
    (hne : file ≠ []) (ops : List (Nat × Spec.Op))
    (hw : Spec.wellUsed page ⟨pagesOf file page, file⟩ (ops.map (·.2))) :
    ∃ d outs, runCalls (Db.open file page) ops = .ok (d, outs) ∧
      d.c.fs.file = (Spec.run ⟨pagesOf file page, file⟩ (ops.map (·.2))).1.disk := by
  obtain ⟨d, e, _, hi⟩ := run_refines ops _ _ (open_inv file page h16 hm hne) hw
  exact ⟨d, _, e, hi.disk⟩

theorem run_append (s : Spec.State) (a b : List Spec.Op) :
    (Spec.run s (a ++ b)).1 = (Spec.run (Spec.run s a).1 b).1 := by
  induction a generalizing s with
  | nil => rfl
  | cons op a ih => simp only [List.cons_append, Spec.run]; exact ih _

/-- **C18, corollary.** If a history ends with a flush, the file holds exactly the
pages the user saw. -/
theorem flush_durable (file : Bytes) (page : Nat) (h16 : 16 ≤ page) (hm : file.length % page = 0)
    (hne : file ≠ []) (ops : List (Nat × Spec.Op)) (now : Nat)
    (hw : Spec.wellUsed page ⟨pagesOf file page, file⟩ ((ops ++ [(now, Spec.Op.flush)]).map (·.2))) :
    ∃ d outs, runCalls (Db.open file page) (ops ++ [(now, .flush)]) = .ok (d, outs) ∧
      d.c.fs.file = (Spec.run ⟨pagesOf file page, file⟩ (ops.map (·.2))).1.pages.flatten := by
  obtain ⟨d, outs, e, h⟩ := disk_is_last_flush file page h16 hm hne _ hw
  refine ⟨d, outs, e, ?_⟩
  rw [h, List.map_append, run_append]
  rfl

/-- **C18.** Cleaning the cache never drops a modified page, and changes neither the
file nor anything a user can read. -/
theorem clean_keeps_modified (d : Db) (a : Bool) (now n : Nat) (b : Blk)
    (hb : d.c.blocks[n]? = some (some b)) (hc : b.changed = true) :
    (d.garbage a now).c.blocks[n]? = some (some b) ∧ (d.garbage a now).c.fs = d.c.fs := by
  refine ⟨?_, rfl⟩
  simp [Db.garbage, garbage, hb, dies, hc]

/-- **C19.** In every state a history can reach: asking for the page right after the
last one appends exactly one page, and page 0 then records the new count; asking
for a page further away is refused and changes nothing. -/
theorem append_one_page (d : Db) (s : Spec.State) (h : Inv d s) (now : Nat) (p : Bytes)
    (hp : p.length = d.c.page) :
    (∃ d' q, d.putBlock d.length false (fun _ => p) now = .ok d' ∧ d'.length = d.length + 1 ∧
      Inv d' { s with pages := s.pages.set 0 q ++ [p] } ∧
      (q.drop 12).take 4 = (List.range 4).map (fun k => UInt8.ofNat ((d.length + 1) / 256 ^ k)) ∧
      ∃ q0, s.pages[0]? = some q0 ∧ q.take 12 = q0.take 12 ∧ q.drop 16 = q0.drop 16) ∧
    (∀ n, d.length < n → ∀ r f, d.putBlock n r f now = .throw) := by
  constructor
  · obtain ⟨d', h1, _, h3, h4⟩ := append_step d s h now p hp
    have hl : 0 < s.pages.length := by rw [← h.pages, length_logical, h.len]; exact h.nonempty
    have h0 : s.pages[0]? = some s.pages[0] := List.getElem?_eq_getElem hl
    have hlen0 : 16 ≤ s.pages[0].length := by
      have hg := logical_get d.c.fs.file d.c.page 0 0 d.c.blocks
      have hb0 : d.c.blocks[0]? = some (d.c.blocks[0]'(by rw [h.len]; exact h.nonempty)) :=
        List.getElem?_eq_getElem _
      have hok := allOk_get _ _ 0 0 _ _ h.ok hb0
      rw [h.pages, h0, hb0] at hg
      generalize d.c.blocks[0]'(by rw [h.len]; exact h.nonempty) = b at hg hok
      have h16 := h.page16
      cases b with
      | some b => simp at hg; rw [hg, hok.1]; exact h16
      | none =>
        simp only [Option.map_some, Option.some.injEq] at hg
        rw [hg]
        have := pageAt_length _ _ _ hok
        simp only [Nat.add_zero] at this ⊢
        omega
    refine ⟨d', Spec.putLength (d.length + 1) s.pages[0], h1, h3, ?_, ?_, s.pages[0], h0, ?_, ?_⟩
    · rw [← modify_zero _ _ _ h0]; exact h4
    · unfold Spec.putLength
      rw [List.append_assoc, List.drop_append_of_le_length (by simp; omega)]
      rw [List.drop_of_length_le (by simp; omega), List.nil_append]
      rw [List.take_append_of_le_length (by simp)]
      rw [List.take_of_length_le (by simp)]
    · unfold Spec.putLength
      rw [List.append_assoc, List.take_append_of_le_length (by simp; omega)]
      rw [List.take_take]; congr 1
    · unfold Spec.putLength
      rw [List.append_assoc, List.drop_append]
      rw [List.drop_of_length_le (by simp; omega), List.nil_append, List.drop_append]
      rw [List.drop_of_length_le (by simp; omega), List.nil_append, List.drop_drop]
      congr 1
      simp
      omega
  · intro n hn r f
    simp only [Db.putBlock]
    rw [if_pos (by omega)]

/-- Every state a history reaches satisfies the invariant used in `append_one_page`. -/
theorem reachable_inv (file : Bytes) (page : Nat) (h16 : 16 ≤ page) (hm : file.length % page = 0)
    (hne : file ≠ []) (ops : List (Nat × Spec.Op))
    (hw : Spec.wellUsed page ⟨pagesOf file page, file⟩ (ops.map (·.2))) :
    ∃ d outs, runCalls (Db.open file page) ops = .ok (d, outs) ∧
      Inv d (Spec.run ⟨pagesOf file page, file⟩ (ops.map (·.2))).1 := by
  obtain ⟨d, e, _, hi⟩ := run_refines ops _ _ (open_inv file page h16 hm hne) hw
  exact ⟨d, _, e, hi⟩

/-- Non-vacuity: a two-page file, a history with reads, writes, an append, a clean-up
and a flush. -/
def sampleFile : Bytes := List.replicate 16 1 ++ List.replicate 16 2
def sampleOps : List (Nat × Spec.Op) :=
  [(0, .read 1), (5, .modify 1 (fun p => 9 :: p.drop 1)), (7, .clean true), (8, .read 1),
   (9, .replace 2 (List.replicate 16 7)), (10, .flush), (11, .read 7)]
example : Spec.wellUsed 16 ⟨pagesOf sampleFile 16, sampleFile⟩ (sampleOps.map (·.2)) := by
  refine ⟨trivial, ⟨?_, by decide⟩, trivial, trivial, by decide, trivial, trivial, trivial⟩
  intro p hp; simp [hp]
example : (runCalls (Db.open sampleFile 16) sampleOps).bind (fun r => .ok (r.2, r.1.c.fs.file)) =
    .ok ([.page (List.replicate 16 2), .done, .done, .page (9 :: List.replicate 15 2), .done, .done, .refused],
      (List.replicate 12 1 ++ [3, 0, 0, 0]) ++ (9 :: List.replicate 15 2) ++ List.replicate 16 7) := by
  decide

/-- **C17, limit.** Asking for a page for writing *without* its old contents is not
transparent unless the caller overwrites all of it: the untouched bytes are zero
or the old ones depending on whether the page happens to be cached. The two
databases below show the same pages and differ only in the cache. -/
theorem write_without_read_depends_on_cache :
    let file := List.replicate 16 (1 : UInt8) ++ List.replicate 16 2
    let cold := Db.open file 16
    let warm : Db := match cold.getBlock 1 0 with | .ok (_, d) => d | _ => cold
    let poke : Bytes → Bytes := fun p => 9 :: p.drop 1
    (cold.putBlock 1 false poke 1).bind (fun d => (d.getBlock 1 2).bind (fun r => .ok r.1))
      = .ok (9 :: List.replicate 15 0) ∧
    (warm.putBlock 1 false poke 1).bind (fun d => (d.getBlock 1 2).bind (fun r => .ok r.1))
      = .ok (9 :: List.replicate 15 2) := by
  decide

/-- **C19, limit.** Asking for the *old contents* of the page after the last one reads
past the end of the file into uninitialised memory. -/
theorem append_with_read_is_ub (d : Db) (s : Spec.State) (h : Inv d s) (now : Nat) (f : Bytes → Bytes) :
    d.putBlock d.length true f now = .ub := by
  have h16 := h.page16
  obtain ⟨p0, fs', b', hp0, e, hd', hdl, hch, hfile, hsize, hfail⟩ := header_step d s h now
  unfold Db.putBlock
  rw [if_neg (by omega)]
  simp only [if_true]
  rw [e]
  simp only [Outcome.ok_bind]
  have hdiv : ¬ fs'.size / d.c.page ≤ d.length := by
    rw [hsize, Nat.mul_div_cancel _ (by omega)]; omega
  have hblk : ((d.c.blocks.set 0 (some b')) ++ [none])[d.length]? = some none := by
    rw [List.getElem?_append_right (by simp [h.len])]
    simp [h.len]
  have hempty : (fs'.file.drop (d.length * d.c.page)).take d.c.page = [] := by
    rw [hfile, List.drop_of_length_le h.flen]; simp
  have hrd : readPage fs' d.c.page d.length = .ub := by
    unfold readPage FileS.seek FileS.read
    rw [if_neg (by
      rw [hsize]
      have : d.length * d.c.page ≤ (d.length + 1) * d.c.page := Nat.mul_le_mul_right _ (by omega)
      omega)]
    simp only [Outcome.ok_bind, hempty, List.length_nil]
    rw [if_pos (by omega)]
  unfold putBlock
  simp only [List.length_set, h.len, show ¬ d.length > d.length by omega, if_false, if_true, hblk,
    create, hdiv, hrd, Outcome.ub_bind]

/-- Non-vacuity of the last two theorems: an opened database is such a state. -/
example : Inv (Db.open sampleFile 16) ⟨pagesOf sampleFile 16, sampleFile⟩ :=
  open_inv _ _ (by decide) (by decide) (by decide)

end Verif.Cache
