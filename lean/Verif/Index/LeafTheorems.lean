import Verif.Index.LeafLemmas

/-! # Property theorems: index leaf pages (C38) -/

namespace Verif.Index
open Verif

/-! ## Sizes -/

theorem foldl_max (es : List Entry) (a : Nat) :
    a ≤ es.foldl (fun a e => if a < e.num then e.num else a) a ∧
    (∀ e ∈ es, e.num ≤ es.foldl (fun a e => if a < e.num then e.num else a) a) ∧
    (es.foldl (fun a e => if a < e.num then e.num else a) a = a ∨ ∃ e ∈ es, e.num = es.foldl (fun a e => if a < e.num then e.num else a) a) := by
  induction es generalizing a with
  | nil => simp
  | cons e es ih =>
    rw [List.foldl_cons]
    obtain ⟨h1, h2, h3⟩ := ih (if a < e.num then e.num else a)
    generalize List.foldl (fun a e => if a < e.num then e.num else a) (if a < e.num then e.num else a) es = r at *
    refine ⟨?_, ?_, ?_⟩
    · split at h1 <;> omega
    · intro d hd
      rcases List.mem_cons.mp hd with rfl | hd
      · split at h1 <;> omega
      · exact h2 d hd
    · rcases h3 with h3 | ⟨d, hd, h3⟩
      · split at h3
        · exact .inr ⟨e, List.mem_cons_self .., h3.symm⟩
        · exact .inl h3
      · exact .inr ⟨d, List.mem_cons_of_mem _ hd, h3⟩

/-- The model's record width is the width of the specification. -/
theorem recBytes_isWidth (len : Nat) (hlen : len < 2 ^ 15) (es : List Entry) (hes : Spec.Entries len es) :
    Spec.IsWidth len es (recBytes len es) := by
  obtain ⟨_, h2, h3⟩ := foldl_max es 0
  refine ⟨bits len, bits _, _, bits_isBits (by omega), bits_isBits ?_, h2, ?_, rfl⟩
  · rcases h3 with h3 | ⟨e, he, h3⟩
    · rw [h3]; decide
    · rw [← h3]; exact (hes e he).2
  · rcases h3 with h3 | h3
    · exact .inl h3
    · exact .inr h3

theorem isBits_unique {n a b : Nat} (ha : Spec.IsBits n a) (hb : Spec.IsBits n b) : a = b :=
  Nat.le_antisymm (ha.2 b hb.1) (hb.2 a ha.1)

/-- There is only one width. -/
theorem isWidth_unique {len : Nat} {es : List Entry} {a b : Nat} (ha : Spec.IsWidth len es a) (hb : Spec.IsWidth len es b) : a = b := by
  obtain ⟨a1, a2, m, h1, h2, h3, h4, rfl⟩ := ha
  obtain ⟨b1, b2, m', g1, g2, g3, g4, rfl⟩ := hb
  have hm : m = m' := by
    apply Nat.le_antisymm
    · rcases h4 with h4 | ⟨e, he, h4⟩
      · omega
      · rw [← h4]; exact g3 e he
    · rcases g4 with g4 | ⟨e, he, g4⟩
      · omega
      · rw [← g4]; exact h3 e he
  subst hm
  rw [isBits_unique h1 g1, isBits_unique h2 g2]

/-- Everything the packer needs to know about widths. -/
theorem widths (len : Nat) (h0 : 0 < len) (hlen : len < 2 ^ 15) (es : List Entry) (hes : Spec.Entries len es) :
    1 ≤ bits len ∧ bits len ≤ 15 ∧ len < 2 ^ bits len ∧ 1 ≤ recBytes len es ∧ recBytes len es ≤ 8 ∧
    (recBytes len es * 8 - bits len - bits len) + bits len + bits len = recBytes len es * 8 ∧
    recBytes len es * 8 - bits len - bits len ≤ 62 ∧
    ∀ e ∈ es, e.num < 2 ^ (recBytes len es * 8 - bits len - bits len) := by
  have hb1 := bits_pos (by omega : len < 2 ^ 32) h0
  have hb2 := bits_le (by omega : len < 2 ^ 32) hlen
  have hb3 := (bits_isBits (by omega : len < 2 ^ 32)).1
  obtain ⟨_, h2, h3⟩ := foldl_max es 0
  have hmx : es.foldl (fun a e => if a < e.num then e.num else a) 0 < 2 ^ 32 := by
    rcases h3 with h3 | ⟨e, he, h3⟩
    · rw [h3]; decide
    · rw [← h3]; exact (hes e he).2
  have hm1 := (bits_isBits hmx).1
  have hm2 := bits_le hmx hmx
  unfold recBytes
  generalize hg : es.foldl (fun a e => if a < e.num then e.num else a) 0 = mx at *
  refine ⟨hb1, hb2, hb3, by omega, by omega, by omega, by omega, ?_⟩
  intro e he
  exact Nat.lt_of_le_of_lt (h2 e he) (Nat.lt_of_lt_of_le hm1 (Nat.pow_le_pow_right (by decide) (by omega)))

/-! ## Round trip -/

theorem flatten_words_length (ms : List Mid) (rb lb nb : Nat) :
    ((ms.map (fun m => le rb (word lb nb m))).flatten).length = rb * ms.length := by
  induction ms with
  | nil => rfl
  | cons m ms ih => rw [List.map_cons, List.flatten_cons, List.length_append, le_length, ih, List.length_cons, Nat.mul_succ]; omega

theorem packed_page (primary : Bool) (len pagesize : Nat) (rest : Bytes) (es : List Entry) (page page' : Bytes)
    (h : pack primary len pagesize rest es page = .ok (some page')) :
    ∃ ms tail, packKeys primary len (pagesize - 30) rest none es 0 [] = .ok (some (ms, tail)) ∧
      recBytes len es * es.length + tail.length ≤ pagesize - 30 ∧
      page' = le 2 2 ++ le 2 es.length ++ (page.drop 4).take 8 ++ le 2 (pagesize - 30 - recBytes len es * es.length - tail.length) ++
        le 4 (mask (recBytes len es * 8 - bits len - bits len)) ++ le 2 (mask (bits len)) ++ le 2 (mask (bits len)) ++
        le 2 (recBytes len es * 8 - bits len - bits len) ++ le 2 (bits len) ++ le 2 (bits len) ++ le 2 (recBytes len es) ++
        ((ms.map (fun m => le (recBytes len es) (word (bits len) (recBytes len es * 8 - bits len - bits len) m))).flatten ++
          (List.replicate (pagesize - 30 - recBytes len es * es.length - tail.length) 0 ++ tail)) := by
  unfold pack at h
  split at h
  · rename_i ms tail hk
    dsimp only at h
    split at h
    · cases h
    · split at h
      · cases h
      · refine ⟨ms, tail, hk, by omega, ?_⟩
        have := Option.some.inj (Outcome.ok.inj h)
        exact this.symm
  · cases h
  · cases h
  · cases h

/-- C38. A packed page has the size of the page and keeps its links to the neighbours. -/
theorem pack_keeps_links (primary : Bool) (len pagesize : Nat) (rest : Bytes) (es : List Entry) (page page' : Bytes)
    (hps : 30 ≤ pagesize) (hpl : page.length = pagesize) (h : pack primary len pagesize rest es page = .ok (some page')) :
    page'.length = pagesize ∧ (page'.drop 4).take 8 = (page.drop 4).take 8 := by
  obtain ⟨ms, tail, hk, hsz, rfl⟩ := packed_page _ _ _ _ _ _ _ h
  obtain ⟨_, _, hml⟩ := packKeys_tail hk
  have hlinks : ((page.drop 4).take 8).length = 8 := by rw [List.length_take, List.length_drop]; omega
  generalize (page.drop 4).take 8 = links at *
  constructor
  · simp only [List.length_append, le_length, flatten_words_length, List.length_replicate, hlinks, hml]
    omega
  · simp only [List.append_assoc]
    rw [← List.append_assoc (le 2 2), List.drop_left' (by simp only [List.length_append, le_length]),
      List.take_left' hlinks]

theorem rd_same {p q : Bytes} {off k : Nat} (h : q.drop 12 = p.drop 12) (hl : q.length = p.length) (ho : 12 ≤ off) : rd q off k = rd p off k := by
  unfold rd
  have : q.drop off = p.drop off := by
    rw [show off = 12 + (off - 12) by omega, ← List.drop_drop, h, List.drop_drop]
  rw [this, hl]

/-- A page that differs from a packed one in flags and links is unpacked in the same way. -/
theorem unpack_like (primary : Bool) (len pagesize : Nat) (rest : Bytes) (es : List Entry) (page page' q : Bytes) (fl : Nat)
    (h0 : 0 < len) (hlen : len < 2 ^ 15) (hes : Spec.Entries len es) (hne : es ≠ []) (hps : 30 ≤ pagesize) (hps' : pagesize ≤ 65536)
    (hpl : page.length = pagesize) (w : Nat) (hw : Spec.IsWidth len es w)
    (h : pack primary len pagesize rest es page = .ok (some page'))
    (hq : q.drop 12 = page'.drop 12) (hql : q.length = page'.length) (hfl : rd q 0 2 = .ok fl) (hfl2 : ¬ (fl &&& 2 = 0))
    (hq2 : rd q 2 2 = rd page' 2 2) :
    unpack len q = if es.length * w + 38 ≤ pagesize + w then .ok es else .ub := by
  have hlen' := (pack_keeps_links _ _ _ _ _ _ _ hps hpl h).1
  have hwe := isWidth_unique hw (recBytes_isWidth len hlen es hes)
  obtain ⟨b1, b2, b3, b4, b5, b6, b7, b8⟩ := widths len h0 hlen es hes
  obtain ⟨ms, tail, hk, hsz, hp⟩ := packed_page _ _ _ _ _ _ _ h
  obtain ⟨_, _, hml⟩ := packKeys_tail hk
  have hlinks : ((page.drop 4).take 8).length = 8 := by rw [List.length_take, List.length_drop]; omega
  generalize (page.drop 4).take 8 = links at *
  generalize hrb : recBytes len es = rb at *
  generalize hlb : bits len = lb at *
  generalize hnb : rb * 8 - lb - lb = nb at *
  have hn16 : es.length < 65536 := by
    have : 1 * es.length ≤ rb * es.length := Nat.mul_le_mul_right _ b4
    omega
  have hpos : 0 < es.length := List.length_pos_iff.mpr hne
  subst hwe
  generalize hfree : pagesize - 30 - w * es.length - tail.length = free at *
  generalize hbody : (ms.map (fun m => le w (word lb nb m))).flatten ++ (List.replicate free 0 ++ tail) = body at *
  have r2 : rd page' 2 2 = .ok es.length := rd_le (pre := le 2 2) (by rw [hp]; simp only [List.append_assoc]; rfl) (le_length _ _) hn16
  have r14 : rd page' 14 4 = .ok (mask nb) :=
    rd_le (pre := le 2 2 ++ le 2 es.length ++ links ++ le 2 free) (by rw [hp]; simp only [List.append_assoc]; rfl)
      (by simp only [List.length_append, le_length, hlinks]) (mask_lt _)
  have r18 : rd page' 18 2 = .ok (mask lb) :=
    rd_le (pre := le 2 2 ++ le 2 es.length ++ links ++ le 2 free ++ le 4 (mask nb)) (by rw [hp]; simp only [List.append_assoc]; rfl)
      (by simp only [List.length_append, le_length, hlinks]) (mask_lt16 _ (by omega))
  have r20 : rd page' 20 2 = .ok (mask lb) :=
    rd_le (pre := le 2 2 ++ le 2 es.length ++ links ++ le 2 free ++ le 4 (mask nb) ++ le 2 (mask lb)) (by rw [hp]; simp only [List.append_assoc]; rfl)
      (by simp only [List.length_append, le_length, hlinks]) (mask_lt16 _ (by omega))
  have r22 : rd page' 22 2 = .ok nb :=
    rd_le (pre := le 2 2 ++ le 2 es.length ++ links ++ le 2 free ++ le 4 (mask nb) ++ le 2 (mask lb) ++ le 2 (mask lb))
      (by rw [hp]; simp only [List.append_assoc]; rfl) (by simp only [List.length_append, le_length, hlinks]) (by omega)
  have r24 : rd page' 24 2 = .ok lb :=
    rd_le (pre := le 2 2 ++ le 2 es.length ++ links ++ le 2 free ++ le 4 (mask nb) ++ le 2 (mask lb) ++ le 2 (mask lb) ++ le 2 nb)
      (by rw [hp]; simp only [List.append_assoc]; rfl) (by simp only [List.length_append, le_length, hlinks]) (by omega)
  have r28 : rd page' 28 2 = .ok w :=
    rd_le (pre := le 2 2 ++ le 2 es.length ++ links ++ le 2 free ++ le 4 (mask nb) ++ le 2 (mask lb) ++ le 2 (mask lb) ++ le 2 nb ++ le 2 lb ++ le 2 lb)
      (by rw [hp]; simp only [List.append_assoc]; rfl) (by simp only [List.length_append, le_length, hlinks]) (by omega)
  have hdrop30 : page'.drop 30 = body := by
    rw [hp]
    exact List.drop_left' (by simp only [List.length_append, le_length, hlinks])
  have htail : page'.drop (page'.length - tail.length) = tail := by
    have h1 : page'.drop (page'.length - tail.length) = (page'.drop 30).drop (page'.length - tail.length - 30) := by
      rw [List.drop_drop]; congr 1; omega
    rw [h1, hdrop30, ← hbody, ← List.append_assoc]
    apply List.drop_left'
    rw [List.length_append, flatten_words_length, List.length_replicate, hml]
    omega
  rw [← hq2] at r2
  rw [← rd_same hq hql (by omega)] at r14 r18 r20 r22 r24 r28
  have hdr : ∀ n, 12 ≤ n → q.drop n = page'.drop n := by
    intro n hn
    rw [show n = 12 + (n - 12) by omega, ← List.drop_drop, hq, List.drop_drop]
  rw [← hql, ← hdr _ (by omega)] at htail
  rw [← hdr _ (by omega)] at hdrop30
  rw [← hql] at hlen'
  unfold unpack
  rw [if_neg (by omega), hfl, Outcome.ok_bind, if_neg hfl2, r2, Outcome.ok_bind, if_neg (by omega), r14, Outcome.ok_bind, r18,
    Outcome.ok_bind, r20, Outcome.ok_bind, r22, Outcome.ok_bind, r24, Outcome.ok_bind, r28, Outcome.ok_bind]
  have hloop := loop_packed (rem := List.replicate free 0 ++ tail) (page := q) b6 b5 (by omega) b3 h0 es none 0 [] tail ms 30 hk
    (fun e he => ⟨(hes e he).1, (hes e he).2, b8 e he⟩) (by omega) htail (by rw [hdrop30, ← hbody]) (by omega)
  rw [List.length_nil, Nat.sub_zero] at hloop
  rw [hloop]
  have hrem : (List.replicate free (0 : Byte) ++ tail).length = pagesize - 30 - w * es.length := by
    rw [List.length_append, List.length_replicate]; omega
  rw [hrem, Nat.mul_comm es.length w]
  by_cases hc : w * es.length + 38 ≤ pagesize + w
  · rw [if_pos hc, if_pos (.inr (by omega))]
  · rw [if_neg hc, if_neg (fun g => g.elim hne (by omega))]

/-- C38. Unpacking a packed page gives back the entries that were packed, unless the
last record lies less than eight bytes from the end of the page: then the unpacker, which
always reads eight bytes, reads past the end. -/
theorem unpack_pack_partial (primary : Bool) (len pagesize : Nat) (rest : Bytes) (es : List Entry) (page page' : Bytes)
    (h0 : 0 < len) (hlen : len < 2 ^ 15) (hes : Spec.Entries len es) (hne : es ≠ []) (hps : 30 ≤ pagesize) (hps' : pagesize ≤ 65536)
    (hpl : page.length = pagesize) (w : Nat) (hw : Spec.IsWidth len es w)
    (h : pack primary len pagesize rest es page = .ok (some page')) :
    unpack len page' = if es.length * w + 38 ≤ pagesize + w then .ok es else .ub := by
  obtain ⟨ms, tail, _, _, hp⟩ := packed_page _ _ _ _ _ _ _ h
  exact unpack_like primary len pagesize rest es page page' page' 2 h0 hlen hes hne hps hps' hpl w hw h rfl rfl
    (rd_le (pre := []) (by rw [hp]; simp only [List.append_assoc, List.nil_append]; rfl) rfl (by decide)) (by decide) rfl

/-! ## When packing succeeds -/

/-- Keys in order after the key `prev`. -/
def SortedFrom (primary : Bool) : Option Bytes → List Entry → Prop
  | _, [] => True
  | prev, e :: es => (∀ p, prev = some p → Spec.Before p e.key ∨ (primary = false ∧ p = e.key)) ∧ SortedFrom primary (some e.key) es

/-- The last key is followed by something or differs from the key before it. -/
def EndFine (rest : Bytes) : Option Bytes → List Entry → Prop
  | _, [] => True
  | prev, [e] => rest ≠ [] ∨ prev ≠ some e.key
  | _, e :: d :: es => EndFine rest (some e.key) (d :: es)

theorem sortedFrom_of (primary : Bool) (es : List Entry) (h : Spec.Sorted primary es) : SortedFrom primary none es := by
  have key : ∀ (es : List Entry) (a : Entry), Spec.Sorted primary (a :: es) → SortedFrom primary (some a.key) es := by
    intro es
    induction es with
    | nil => intro a _; trivial
    | cons b es ih =>
      intro a ha
      exact ⟨fun p hp => (by cases hp; exact ha.1), ih b ha.2⟩
  cases es with
  | nil => trivial
  | cons a es => exact ⟨fun p hp => (by cases hp), key es a h⟩

theorem endFine_of (rest : Bytes) (es : List Entry) (h : rest ≠ [] ∨ ∀ pre a b, es = pre ++ [a, b] → a.key ≠ b.key) :
    EndFine rest none es := by
  have key : ∀ (es : List Entry) (a : Entry), (rest ≠ [] ∨ ∀ pre x y, a :: es = pre ++ [x, y] → x.key ≠ y.key) →
      EndFine rest (some a.key) es := by
    intro es
    induction es with
    | nil => intro a _; trivial
    | cons b es ih =>
      intro a ha
      cases es with
      | nil =>
        rcases ha with ha | ha
        · exact .inl ha
        · exact .inr (fun hh => ha [] a b rfl (Option.some.inj hh))
      | cons c es =>
        apply ih b
        rcases ha with ha | ha
        · exact .inl ha
        · exact .inr (fun pre x y hh => ha (a :: pre) x y (by rw [hh]; rfl))
  cases es with
  | nil => trivial
  | cons a es =>
    cases es with
    | nil => exact .inr (fun hh => by cases hh)
    | cons b es => exact key (b :: es) a h

theorem before_common {p k : Bytes} (h : Spec.Before p k) : common k p < k.length ∧ common k p < p.length ∧ ∃ y, k[common k p]? = some y ∧ y ≠ 0 := by
  obtain ⟨i, x, y, h1, h2, h3, h4⟩ := h
  have hi1 : i < p.length := (List.getElem?_eq_some_iff.mp h2).1
  have hi2 : i < k.length := (List.getElem?_eq_some_iff.mp h3).1
  have he : common k p = i := by
    have hc := common_take k p
    rcases Nat.lt_trichotomy (common k p) i with hlt | heq | hgt
    · have hn := common_next k p (by omega) (by omega)
      have h5 : (k.take i)[common k p]? = (p.take i)[common k p]? := by rw [h1]
      rw [List.getElem?_take_of_lt hlt, List.getElem?_take_of_lt hlt] at h5
      exact absurd h5 hn
    · exact heq
    · have h5 : (k.take (common k p))[i]? = (p.take (common k p))[i]? := by rw [hc]
      rw [List.getElem?_take_of_lt hgt, List.getElem?_take_of_lt hgt, h2, h3] at h5
      cases h5
      exact absurd h4 (UInt8.lt_irrefl _)
  refine ⟨by omega, by omega, y, by rw [he, h3], ?_⟩
  rintro rfl
  exact UInt8.not_lt_zero h4

theorem common_self (k : Bytes) : common k k = k.length := by
  induction k with
  | nil => rfl
  | cons x k ih => unfold common; rw [if_pos rfl, ih]; rfl

theorem common_full {k p : Bytes} (hl : k.length = p.length) (h : common k p = k.length) : p = k := by
  have := common_take k p
  rw [h, List.take_of_length_le (Nat.le_refl _), List.take_of_length_le (by omega)] at this
  exact this.symm

/-- Keys in order are never refused. -/
theorem no_throw {primary : Bool} {prev : Option Bytes} {k : Bytes}
    (hs : ∀ p, prev = some p → Spec.Before p k ∨ (primary = false ∧ p = k)) :
    ¬ (leftOf prev k + trailing k > k.length ∧ (leftOf prev k < k.length ∨ primary = true)) := by
  rintro ⟨h1, h2⟩
  cases prev with
  | none =>
    have := trailing_le k
    simp only [leftOf] at h1
    omega
  | some p =>
    simp only [leftOf] at h1 h2
    rcases hs p rfl with hb | ⟨hp, rfl⟩
    · obtain ⟨g1, g2, y, g3, g4⟩ := before_common hb
      have ht := trailing_drop k
      have htl := trailing_le k
      have h5 : (k.drop (k.length - trailing k))[common k p - (k.length - trailing k)]? = some y := by
        rw [List.getElem?_drop, show k.length - trailing k + (common k p - (k.length - trailing k)) = common k p by omega, g3]
      rw [ht, List.getElem?_replicate] at h5
      split at h5
      · cases h5; exact g4 rfl
      · cases h5
    · rw [common_self] at h2
      rcases h2 with h2 | h2
      · omega
      · rw [hp] at h2; cases h2

theorem packKeys_sorted {primary : Bool} {len ds : Nat} {rest : Bytes} (es : List Entry) (prev : Option Bytes) (plen : Nat) (tail : Bytes)
    (hes : ∀ e ∈ es, e.key.length = len) (hprev : ∀ p, prev = some p → p.length = len)
    (hs : SortedFrom primary prev es) (he : EndFine rest prev es) (hpl : plen = tail.length) :
    (es ≠ [] → ds ≤ plen + Spec.stored len prev es → packKeys primary len ds rest prev es plen tail = .ok none) ∧
    (plen + Spec.stored len prev es < ds → ∃ ms t, packKeys primary len ds rest prev es plen tail = .ok (some (ms, t)) ∧
      t.length = plen + Spec.stored len prev es) := by
  induction es generalizing prev plen tail with
  | nil => exact ⟨fun h => absurd rfl h, fun _ => ⟨[], tail, rfl, by rw [Spec.stored, hpl]; rfl⟩⟩
  | cons e es ih =>
    have hk := hes e (List.mem_cons_self ..)
    obtain ⟨hs1, hs2⟩ := hs
    have hnt := no_throw hs1
    rw [hk] at hnt
    have hL : leftOf prev e.key ≤ len := by rw [← hk]; exact leftOf_le _ _
    have hst : Spec.stored len prev (e :: es) =
        (len - leftOf prev e.key - rightOf len (leftOf prev e.key) e.key) + Spec.stored len (some e.key) es := by
      rw [Spec.stored, ← trailing_eq]
      congr 1
      have : Spec.sharedWith prev e.key = leftOf prev e.key := by
        cases prev with
        | none => rfl
        | some p => exact (common_eq_shared e.key p).symm
      rw [this]
      unfold rightOf
      split <;> omega
    have hub : ¬ (prev ≠ none ∧ leftOf prev e.key = len ∧ es = [] ∧ rest = []) := by
      rintro ⟨h1, h2, h3, h4⟩
      subst h3 h4
      rcases he with he | he
      · exact he rfl
      · cases prev with
        | none => exact h1 rfl
        | some p =>
          apply he
          rw [common_full (k := e.key) (p := p) (by rw [hk, hprev p rfl]) (by rw [hk]; exact h2)]
    have hefs : EndFine rest (some e.key) es := by
      cases es with
      | nil => trivial
      | cons d es => exact he
    have hR := rightOf_le len (leftOf prev e.key) e.key hL
    generalize hj : len - leftOf prev e.key - rightOf len (leftOf prev e.key) e.key = j at *
    have hmid : ((e.key.drop (leftOf prev e.key)).take j).length = j := by
      rw [List.length_take, List.length_drop]; omega
    have hunf : packKeys primary len ds rest prev (e :: es) plen tail =
        if plen + j ≥ ds then .ok none
        else packKeys primary len ds rest (some e.key) es (plen + j) ((e.key.drop (leftOf prev e.key)).take j ++ tail) >>=
          fun r => .ok (r.map (fun x => (⟨e.num, leftOf prev e.key, rightOf len (leftOf prev e.key) e.key⟩ :: x.1, x.2))) := by
      rw [packKeys, if_neg hub, if_neg hnt, hj]
    obtain ⟨i1, i2⟩ := ih (some e.key) (plen + j) ((e.key.drop (leftOf prev e.key)).take j ++ tail)
      (fun d hd => hes d (List.mem_cons_of_mem _ hd)) (fun p hp => by cases hp; exact hk) hs2 hefs
      (by rw [List.length_append, hmid]; omega)
    rw [hst, hunf]
    constructor
    · intro _ hge
      split
      · rfl
      · have hne : es ≠ [] := by
          rintro rfl
          simp only [Spec.stored] at hge
          omega
        rw [i1 hne (by omega)]
        rfl
    · intro hlt
      obtain ⟨ms, t, h1, h2⟩ := i2 (by omega)
      rw [if_neg (by omega), h1]
      exact ⟨_, t, rfl, by omega⟩

/-- C38. Entries in key order are packed exactly when they fit: the packed records and
the key bytes that must be stored together take no more than the page offers. Otherwise
the packer says so; it never fails. -/
theorem pack_sorted (primary : Bool) (len pagesize : Nat) (rest : Bytes) (es : List Entry) (page : Bytes)
    (h0 : 0 < len) (hlen : len < 2 ^ 15) (hes : Spec.Entries len es) (hne : es ≠ []) (hs : Spec.Sorted primary es)
    (hend : rest ≠ [] ∨ ∀ pre a b, es = pre ++ [a, b] → a.key ≠ b.key) (w : Nat) (hw : Spec.IsWidth len es w) :
    (es.length * w + Spec.stored len none es ≤ pagesize - 30 → ∃ page', pack primary len pagesize rest es page = .ok (some page')) ∧
    (pagesize - 30 < es.length * w + Spec.stored len none es → pack primary len pagesize rest es page = .ok none) := by
  have hwe := isWidth_unique hw (recBytes_isWidth len hlen es hes)
  obtain ⟨b1, b2, b3, b4, b5, b6, b7, b8⟩ := widths len h0 hlen es hes
  rw [← hwe] at b4 b5
  obtain ⟨h1, h2⟩ := packKeys_sorted (primary := primary) (len := len) (ds := pagesize - 30) (rest := rest) es none 0 []
    (fun e he => (hes e he).1) (fun p hp => by cases hp) (sortedFrom_of _ _ hs) (endFine_of _ _ hend) rfl
  rw [Nat.zero_add] at h1 h2
  have hpos : 0 < es.length := List.length_pos_iff.mpr hne
  have hmul : 1 ≤ es.length * w := Nat.mul_pos hpos b4
  constructor
  · intro hfit
    obtain ⟨ms, t, h3, h4⟩ := h2 (by omega)
    unfold pack
    rw [h3]
    dsimp only
    rw [← hwe, Nat.mul_comm w, if_neg (by omega), if_neg (by omega)]
    exact ⟨_, rfl⟩
  · intro hbig
    unfold pack
    by_cases hst : pagesize - 30 ≤ Spec.stored len none es
    · rw [h1 hne hst]
    · obtain ⟨ms, t, h3, h4⟩ := h2 (by omega)
      rw [h3]
      dsimp only
      rw [← hwe, Nat.mul_comm w, if_pos (by omega)]

/-- C38. In a primary index a page of entries in order is never undefined to pack. -/
theorem primary_end_fine (es : List Entry) (hs : Spec.Sorted true es) : ∀ pre a b, es = pre ++ [a, b] → a.key ≠ b.key := by
  intro pre
  induction pre generalizing es with
  | nil =>
    rintro a b rfl hh
    rcases hs.1 with ⟨i, x, y, _, h2, h3, h4⟩ | ⟨h1, _⟩
    · rw [hh, h3] at h2; cases h2; exact UInt8.lt_irrefl _ h4
    · cases h1
  | cons c pre ih =>
    rintro a b rfl
    cases pre with
    | nil => exact ih _ hs.2 a b rfl
    | cons d pre => exact ih _ hs.2 a b rfl

/-! ## Disagreements -/

/-- C38, a disagreement: a page whose last two keys are equal is packed by reading one byte
past the caller's buffer (inserting a duplicate key at the end of a leaf page does this). -/
theorem duplicate_end_reads_past (page : Bytes) :
    pack false 2 4096 [] [⟨1, [5, 6]⟩, ⟨2, [5, 6]⟩] page = .ub := by
  rfl

/-- Entries with the key zero. -/
def zeroKeys (n : Nat) : List Entry := (List.range n).map (fun i => ⟨i, [0]⟩)

theorem zeroKeys_sorted (n k : Nat) : Spec.Sorted false ((List.range' k n).map (fun i => (⟨i, [0]⟩ : Entry))) := by
  induction n generalizing k with
  | zero => trivial
  | succ n ih =>
    rw [List.range'_succ, List.map_cons]
    have := ih (k + 1)
    cases n with
    | zero => trivial
    | succ n =>
      rw [List.range'_succ, List.map_cons] at this ⊢
      exact ⟨.inr ⟨rfl, rfl⟩, this⟩

theorem zeroKeys_stored (n k : Nat) (p : Option Bytes) : Spec.stored 1 p ((List.range' k n).map (fun i => (⟨i, [0]⟩ : Entry))) = 0 := by
  induction n generalizing k p with
  | zero => rfl
  | succ n ih =>
    rw [List.range'_succ, List.map_cons, Spec.stored, ih]
    have : Spec.zeroTail [0] = 1 := by decide
    rw [this]
    omega

set_option linter.constructorNameAsVariable false in
/-- C38, a disagreement: 2033 duplicate keys exactly fill a page of 4096 bytes, and then
the page cannot be unpacked without reading past its end. -/
theorem full_page_unreadable (page : Bytes) (hp : page.length = 4096) :
    ∃ page', pack false 1 4096 [0] (zeroKeys 2033) page = .ok (some page') ∧ unpack 1 page' = .ub := by
  have hr : zeroKeys 2033 = (List.range' 0 2033).map (fun i => (⟨i, [0]⟩ : Entry)) := by
    rw [zeroKeys, List.range_eq_range']
  have hlen : (zeroKeys 2033).length = 2033 := by rw [hr, List.length_map, List.length_range']
  have hes : Spec.Entries 1 (zeroKeys 2033) := by
    intro e he
    rw [zeroKeys, List.mem_map] at he
    obtain ⟨i, hi, rfl⟩ := he
    rw [List.mem_range] at hi
    exact ⟨rfl, by simp only; omega⟩
  have hne : zeroKeys 2033 ≠ [] := by
    intro h; rw [h] at hlen; cases hlen
  have hw : Spec.IsWidth 1 (zeroKeys 2033) 2 := by
    refine ⟨1, 11, 2032, ⟨by decide, ?_⟩, ⟨by decide, ?_⟩, ?_, .inr ⟨⟨2032, [0]⟩, ?_, rfl⟩, rfl⟩
    · intro c hc
      cases c with
      | zero => simp at hc
      | succ c => omega
    · intro c hc
      by_cases h : c ≤ 10
      · have : 2 ^ c ≤ 2 ^ 10 := Nat.pow_le_pow_right (by decide) h
        omega
      · omega
    · intro e he
      rw [zeroKeys, List.mem_map] at he
      obtain ⟨i, hi, rfl⟩ := he
      rw [List.mem_range] at hi
      simp only; omega
    · rw [zeroKeys, List.mem_map]
      exact ⟨2032, List.mem_range.mpr (by omega), rfl⟩
  have hs : Spec.Sorted false (zeroKeys 2033) := by rw [hr]; exact zeroKeys_sorted _ _
  have hst : Spec.stored 1 none (zeroKeys 2033) = 0 := by rw [hr]; exact zeroKeys_stored _ _ _
  clear hr
  generalize zeroKeys 2033 = zs at *
  obtain ⟨page', h⟩ := (pack_sorted false 1 4096 [0] zs page (by decide) (by decide) hes hne hs
    (.inl (by decide)) 2 hw).1 (by rw [hlen, hst]; omega)
  refine ⟨page', h, ?_⟩
  rw [unpack_pack_partial false 1 4096 [0] zs page page' (by decide) (by decide) hes hne (by decide) (by decide) hp 2 hw h, hlen]
  exact if_neg (by omega)

/-! ## Instances -/

/-- Three keys of four bytes: shared prefixes, trailing zeros, a duplicate. -/
def exEntries : List Entry := [⟨7, [1, 2, 0, 0]⟩, ⟨300, [1, 2, 3, 0]⟩, ⟨2, [1, 2, 3, 0]⟩, ⟨9, [2, 0, 0, 1]⟩]

example : Spec.Entries 4 exEntries := by
  intro e he
  simp only [exEntries, List.mem_cons, List.not_mem_nil, or_false] at he
  rcases he with rfl | rfl | rfl | rfl <;> decide

example : Spec.Sorted false exEntries := by
  refine ⟨.inl ⟨2, 0, 3, rfl, rfl, rfl, by decide⟩, .inr ⟨rfl, rfl⟩, .inl ⟨0, 1, 2, rfl, rfl, rfl, by decide⟩, trivial⟩

/-- The stored page: 9 bits of record number and 2 × 3 bits of lengths make two bytes per
record; seven key bytes are stored. -/
example : (pack false 4 64 [] exEntries (List.replicate 64 0)).bind (fun p => match p with
    | some p => (unpack 4 p).bind (fun es => .ok (es, p.drop 57))
    | none => .throw) = .ok (exEntries, [2, 0, 0, 1, 3, 1, 2]) := by decide +kernel

/-- Too many for a small page. -/
example : pack false 4 44 [] exEntries (List.replicate 44 0) = .ok none := by decide +kernel

/-- Keys out of order are refused when their zeros overlap the shared prefix. -/
example : pack false 4 64 [] [⟨1, [0, 2, 0, 0]⟩, ⟨2, [0, 0, 0, 0]⟩] (List.replicate 64 0) = .throw := by decide +kernel

end Verif.Index
