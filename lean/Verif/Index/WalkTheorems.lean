import Verif.Index.WalkSpec
import Verif.Index.LeafTheorems
import Mathlib.Data.List.Perm.Subperm

/-! # Property theorems: walking an index (C39) -/

namespace Verif.Index
open Verif Blob

theorem rd_at {p : Bytes} {off k n : Nat} (h : Spec.At p off k n) : rd p off k = .ok n := by
  obtain ⟨pre, post, h1, h2, h3⟩ := h
  exact rd_le h1 h2 h3

theorem rdAt_at {p : Bytes} {off k n : Nat} (h : Spec.At p off k n) : rdAt p (off : Int) k = .ok n := by
  unfold rdAt
  rw [if_neg (by omega), Int.toNat_natCast]
  exact rd_at h

theorem rdBe_at {p : Bytes} {off n : Nat} (h : Spec.AtBe p off 4 n) : rdBe p (off : Int) = .ok n := by
  obtain ⟨pre, post, rfl, h2, h3⟩ := h
  unfold rdBe
  rw [Int.toNat_natCast, if_neg (by
    simp only [List.length_append, List.length_reverse, le_length]; omega), List.drop_left' h2,
    List.take_left' (by rw [List.length_reverse, le_length]), List.reverse_reverse, ofLe_le, Nat.mod_eq_of_lt h3]

theorem page_at {b : Base} {n : Nat} {page : Bytes} (h : Spec.PageAt b n page) : b.page n = .ok page := by
  obtain ⟨pre, post, h1, h2, h3⟩ := h
  have ho : b.offset n = pre.length := by rw [h2]; rfl
  unfold Base.page getData
  rw [ho, h1, if_pos (by simp only [List.length_append]; omega), List.drop_left' rfl, List.take_left' h3]

theorem flag_bit (f : Nat) : (f &&& 2 ≠ 0) ↔ f.testBit 1 = true := by
  rw [Nat.testBit]
  have h1 : f &&& 2 = 2 * ((f >>> 1) &&& 1) := by
    apply Nat.eq_of_testBit_eq
    intro i
    cases i with
    | zero => simp
    | succ i =>
      rw [Nat.testBit_and, Nat.mul_comm, ← Nat.pow_one 2, Nat.testBit_mul_two_pow, Nat.testBit_and, Nat.testBit_shiftRight]
      cases i with
      | zero => simp; intro _; decide
      | succ i =>
        simp [Nat.testBit, Nat.shiftRight_succ_inside]
  rw [h1, Nat.and_comm 1]
  constructor
  · intro h
    simp only [bne_iff_ne, ne_eq]
    intro hh
    rw [hh] at h
    exact h rfl
  · intro h hh
    simp only [bne_iff_ne, ne_eq] at h
    omega

theorem descend_leftmost {b : Base} {len n l : Nat} (h : Spec.Leftmost b len n l) :
    ∃ f0 leaf, Spec.PageAt b l leaf ∧ ∀ page, b.page n = .ok page → ∀ f, f0 ≤ f → descend b (len : Int) f page = .ok (some leaf) := by
  induction h with
  | @leaf n page nums next hp hl =>
    refine ⟨1, page, hp, ?_⟩
    intro page' hp' f hf
    rw [page_at hp] at hp'
    cases hp'
    obtain ⟨g, rfl⟩ : ∃ g, f = g + 1 := ⟨f - 1, by omega⟩
    obtain ⟨x, hx, hx'⟩ := hl.flag
    rw [descend, rd_at hx, Outcome.ok_bind, if_pos ((flag_bit x).mpr hx')]
  | @branch n page child l hp hb _ ih =>
    obtain ⟨f0, leaf, h1, h2⟩ := ih
    refine ⟨f0 + 1, leaf, h1, ?_⟩
    intro page' hp' f hf
    rw [page_at hp] at hp'
    cases hp'
    obtain ⟨g, rfl⟩ : ∃ g, f = g + 1 := ⟨f - 1, by omega⟩
    obtain ⟨x, hx, hx'⟩ := hb.flag
    have hc : rdBe page (16 + (len : Int)) = .ok child := by
      have := rdBe_at hb.child
      rw [show ((12 + len + 4 : Nat) : Int) = 16 + (len : Int) by omega] at this
      exact this
    have hcp : ∃ p, b.page child = .ok p := by
      rename_i hlm
      cases hlm with
      | leaf hp _ => exact ⟨_, page_at hp⟩
      | branch hp _ _ => exact ⟨_, page_at hp⟩
    obtain ⟨cp, hcp⟩ := hcp
    have hnot : ¬ (x &&& 2 ≠ 0) := by rw [flag_bit, hx']; exact Bool.false_ne_true
    rw [descend, rd_at hx, Outcome.ok_bind, if_neg hnot, hc, Outcome.ok_bind, hcp, Outcome.ok_bind]
    exact h2 cp hcp g (by omega)

theorem leafNums_spec {page : Bytes} {m w : Nat} (nums : List Nat) (k : Nat)
    (h : ∀ i x, nums[i]? = some x → ∃ r, Spec.At page (30 + (k + i) * w) 4 r ∧ r &&& m = x) :
    leafNums page m (w : Int) nums.length ((30 + k * w : Nat) : Int) = .ok nums := by
  induction nums generalizing k with
  | nil => rfl
  | cons x nums ih =>
    obtain ⟨r, h1, h2⟩ := h 0 x rfl
    rw [Nat.add_zero] at h1
    have hpos : ((30 + k * w : Nat) : Int) + (w : Int) = ((30 + (k + 1) * w : Nat) : Int) := by
      rw [Nat.add_mul, Nat.one_mul]; omega
    rw [List.length_cons, leafNums, rdAt_at h1, Outcome.ok_bind, hpos, ih (k + 1) ?_, Outcome.ok_bind, h2]
    intro i y hy
    obtain ⟨r, h3, h4⟩ := h (i + 1) y hy
    exact ⟨r, by rw [show k + 1 + i = k + (i + 1) by omega]; exact h3, h4⟩

theorem int16_small {n : Nat} (h : n < 32768) : int16 n = n := if_pos h

/-- One turn over a leaf page. -/
theorem chain_leaf {b : Base} {page : Bytes} {nums : List Nat} {next f : Nat} {done : List Nat} (h : Spec.IsLeaf page nums next) :
    chain b (f + 1) page done =
      if done.length + nums.length > b.room then .ub
      else if next = 4294967295 then .ok (some (done ++ nums))
      else b.page next >>= fun page' => chain b f page' (done ++ nums) := by
  obtain ⟨m, w, h1, h2, h3, h4⟩ := h.recs
  have hn := leafNums_spec (page := page) (m := m) (w := w) nums 0 (fun i x hx => by rw [Nat.zero_add]; exact h4 i x hx)
  rw [Nat.zero_mul] at hn
  rw [chain, rd_at h.count.1, Outcome.ok_bind, rd_at h.next, Outcome.ok_bind, rd_at h1, Outcome.ok_bind, rd_at h2, Outcome.ok_bind,
    int16_small h3, int16_small h.count.2, Int.toNat_natCast]
  have : leafNums page m (w : Int) nums.length 30 = .ok nums := hn
  rw [this, Outcome.ok_bind]

theorem chain_leaves {b : Base} {n : Nat} {ls : List (List Nat)} (h : Spec.Leaves b n ls) :
    ∀ page, b.page n = .ok page → ∀ (done : List Nat) (f : Nat), ls.length ≤ f →
      chain b f page done = if done.length + ls.flatten.length > b.room then .ub else .ok (some (done ++ ls.flatten)) := by
  induction h with
  | @last n page nums hp hl =>
    intro page' hp' done f hf
    rw [page_at hp] at hp'
    cases hp'
    obtain ⟨g, rfl⟩ : ∃ g, f = g + 1 := ⟨f - 1, by simp only [List.length_cons, List.length_nil] at hf; omega⟩
    rw [chain_leaf hl, if_pos rfl]
    simp only [List.flatten_cons, List.flatten_nil, List.append_nil]
  | @more n page nums next rest hp hl hne hrest ih =>
    intro page' hp' done f hf
    rw [page_at hp] at hp'
    cases hp'
    rw [List.length_cons] at hf
    obtain ⟨g, rfl⟩ : ∃ g, f = g + 1 := ⟨f - 1, by omega⟩
    have hnp : ∃ p, b.page next = .ok p := by
      cases hrest with
      | last hp _ => exact ⟨_, page_at hp⟩
      | more hp _ _ _ => exact ⟨_, page_at hp⟩
    obtain ⟨np, hnp⟩ := hnp
    rw [chain_leaf hl, if_neg hne, hnp, Outcome.ok_bind, ih np hnp (done ++ nums) g (by omega), List.length_append,
      List.flatten_cons, List.length_append, List.append_assoc]
    by_cases h1 : done.length + nums.length > b.room
    · rw [if_pos h1, if_pos (by omega)]
    · rw [if_neg h1]
      by_cases h2 : done.length + nums.length + rest.flatten.length > b.room
      · rw [if_pos h2, if_pos (by omega)]
      · rw [if_neg h2, if_neg (by omega)]

theorem rd_part {f h : Bytes} {s off k n : Nat} (hh : getData f s 8 = .ok h) (ha : Spec.At f (s + off) k n) (hk : off + k ≤ 8) :
    rd h off k = .ok n := by
  unfold getData at hh
  split at hh
  · rename_i hl
    cases hh
    obtain ⟨pre, post, rfl, h2, h3⟩ := ha
    have hl2 : s + 8 - pre.length - k = 8 - off - k := by omega
    have e : ((pre ++ (le k n ++ post)).drop s).take 8 = (pre.drop s) ++ (le k n ++ post.take (8 - off - k)) := by
      rw [List.drop_append_of_le_length (by omega), List.take_append, List.take_append, List.take_of_length_le (by rw [List.length_drop]; omega),
        List.take_of_length_le (l := le k n) (by rw [le_length, List.length_drop]; omega), le_length, List.length_drop,
        show 8 - (pre.length - s) - k = 8 - off - k by omega]
    rw [e]
    exact rd_le rfl (by rw [List.length_drop]; omega) h3
  · cases hh

/-- Everything before the descent. -/
theorem walk_start {b : Base} {root len fuel : Nat} {page : Bytes} (hh : Spec.Header b root len) (hp : Spec.PageAt b root page) :
    walk b fuel = (rd page 2 2 >>= fun curlen => if curlen = 0 then .ok (some []) else
      descend b (len : Int) fuel page >>= fun leaf => match leaf with
        | none => .ok none
        | some leaf => chain b fuel leaf []) := by
  obtain ⟨h0, h8, h1, h2, h3⟩ := hh
  obtain ⟨hd, hhd⟩ : ∃ hd, getData b.file b.start 8 = .ok hd := ⟨_, if_pos h8⟩
  unfold walk
  rw [if_neg (by omega), hhd, Outcome.ok_bind, rd_part (off := 0) hhd h1 (by omega), Outcome.ok_bind, rd_part (off := 4) hhd h2 (by omega),
    Outcome.ok_bind, page_at hp, Outcome.ok_bind, int16_small h3]
  rfl

/-- C39. The record numbers listed for an index are those of its leaves, from the leftmost
leaf on, page after page, whatever the depth of the tree and the number of leaves; if there
are more of them than the data file has records, the walk is undefined. -/
theorem walk_lists (b : Base) (root len c l : Nat) (page : Bytes) (ls : List (List Nat)) (hh : Spec.Header b root len)
    (hp : Spec.PageAt b root page) (hc : Spec.At page 2 2 c) (hc0 : 0 < c) (hl : Spec.Leftmost b len root l) (hls : Spec.Leaves b l ls) :
    ∃ fuel, ∀ f, fuel ≤ f → walk b f = if ls.flatten.length ≤ b.room then .ok (some ls.flatten) else .ub := by
  obtain ⟨f0, leaf, h1, h2⟩ := descend_leftmost hl
  refine ⟨f0 + ls.length, ?_⟩
  intro f hf
  rw [walk_start hh hp, rd_at hc, Outcome.ok_bind, if_neg (by omega), h2 page (page_at hp) f (by omega), Outcome.ok_bind]
  have := chain_leaves hls leaf (page_at h1) [] f (by omega)
  rw [List.length_nil, Nat.zero_add, List.nil_append] at this
  dsimp only
  rw [this]
  by_cases hr : ls.flatten.length ≤ b.room
  · rw [if_pos hr, if_neg (by omega)]
  · rw [if_neg hr, if_pos (by omega)]

/-- C39. When the leaves list different records of the table the walk succeeds. -/
theorem walk_lists_records (b : Base) (root len c l : Nat) (page : Bytes) (ls : List (List Nat)) (hh : Spec.Header b root len)
    (hp : Spec.PageAt b root page) (hc : Spec.At page 2 2 c) (hc0 : 0 < c) (hl : Spec.Leftmost b len root l) (hls : Spec.Leaves b l ls)
    (hnd : ls.flatten.Nodup) (hlt : ∀ n ∈ ls.flatten, n < b.room) :
    ∃ fuel, ∀ f, fuel ≤ f → walk b f = .ok (some ls.flatten) ∧ numRecords b f = .ok (some ls.flatten.length) ∧
      ∀ i x, ls.flatten[i]? = some x → numRec b f i = .ok (some x) := by
  obtain ⟨fuel, h⟩ := walk_lists b root len c l page ls hh hp hc hc0 hl hls
  have hle : ls.flatten.length ≤ b.room := by
    have hsub : ls.flatten ⊆ List.range b.room := fun n hn => List.mem_range.mpr (hlt n hn)
    have := (List.subperm_of_subset hnd hsub).length_le
    rwa [List.length_range] at this
  refine ⟨fuel, fun f hf => ?_⟩
  have hw := h f hf
  rw [if_pos hle] at hw
  refine ⟨hw, ?_, ?_⟩
  · unfold numRecords
    rw [hw]
    rfl
  · intro i x hx
    unfold numRec
    have := hh.1
    rw [if_neg (by omega), hw, Outcome.ok_bind]
    dsimp only
    rw [hx]

/-- C39. An index whose root has no entries lists nothing. -/
theorem walk_empty (b : Base) (root len : Nat) (page : Bytes) (hh : Spec.Header b root len)
    (hp : Spec.PageAt b root page) (hc : Spec.At page 2 2 0) (f : Nat) : walk b f = .ok (some []) := by
  rw [walk_start hh hp, rd_at hc]
  rfl

/-- C39, a disagreement: asking for a number beyond the list is undefined, not refused. -/
theorem numRec_beyond_ub (b : Base) (f i : Nat) (l : List Nat) (hs : b.start ≠ 0) (h : walk b f = .ok (some l)) (hi : l.length ≤ i) :
    numRec b f i = .ub := by
  unfold numRec
  rw [if_neg hs, h, Outcome.ok_bind]
  dsimp only
  rw [List.getElem?_eq_none hi]

/-- C39, a disagreement: if the block below the first entry of the root is the root itself,
the walk never ends. -/
theorem walk_cycle_diverges (b : Base) (root len c : Nat) (page : Bytes) (hh : Spec.Header b root len)
    (hp : Spec.PageAt b root page) (hc : Spec.At page 2 2 c) (hc0 : 0 < c) (hb : Spec.IsBranch len page root) (f : Nat) :
    walk b f = .ok none := by
  have hd : ∀ f, descend b (len : Int) f page = .ok none := by
    intro f
    induction f with
    | zero => rfl
    | succ f ih =>
      obtain ⟨x, hx, hx'⟩ := hb.flag
      have hcb : rdBe page (16 + (len : Int)) = .ok root := by
        have := rdBe_at hb.child
        rw [show ((12 + len + 4 : Nat) : Int) = 16 + (len : Int) by omega] at this
        exact this
      have hnot : ¬ (x &&& 2 ≠ 0) := by rw [flag_bit, hx']; exact Bool.false_ne_true
      rw [descend, rd_at hx, Outcome.ok_bind, if_neg hnot, hcb, Outcome.ok_bind, page_at hp, Outcome.ok_bind, ih]
  rw [walk_start hh hp, rd_at hc, Outcome.ok_bind, if_neg (by omega), hd]
  rfl

/-! ## Packed pages are leaves -/

theorem packKeys_nums {primary : Bool} {len ds : Nat} {rest : Bytes} {prev : Option Bytes} {es : List Entry} {plen : Nat} {tail tail' : Bytes}
    {ms : List Mid} (h : packKeys primary len ds rest prev es plen tail = .ok (some (ms, tail'))) (hes : ∀ e ∈ es, e.key.length = len) :
    ms.map (·.num) = es.map (·.num) ∧ ∀ m ∈ ms, m.left ≤ len ∧ m.right ≤ len := by
  induction es generalizing prev plen tail ms tail' with
  | nil => simp only [packKeys] at h; cases h; exact ⟨rfl, fun m hm => (by cases hm)⟩
  | cons e es ih =>
    rw [packKeys] at h
    split at h
    · cases h
    · split at h
      · cases h
      · split at h
        · cases h
        · obtain ⟨r, h1, h2⟩ := bind_ok h
          cases r with
          | none => cases h2
          | some x =>
            cases h2
            obtain ⟨i1, i2⟩ := ih h1 (fun d hd => hes d (List.mem_cons_of_mem _ hd))
            have hL : leftOf prev e.key ≤ len := by rw [← hes e (List.mem_cons_self ..)]; exact leftOf_le _ _
            have hR := rightOf_le len (leftOf prev e.key) e.key hL
            refine ⟨by rw [List.map_cons, List.map_cons, i1], ?_⟩
            intro m hm
            rcases List.mem_cons.mp hm with rfl | hm
            · exact ⟨hL, by show rightOf len (leftOf prev e.key) e.key ≤ len; omega⟩
            · exact i2 m hm

theorem at_iff (p : Bytes) (off k n : Nat) :
    Spec.At p off k n ↔ off + k ≤ p.length ∧ (p.drop off).take k = le k n ∧ n < 256 ^ k := by
  constructor
  · rintro ⟨pre, post, rfl, h2, h3⟩
    refine ⟨by simp only [List.length_append, le_length]; omega, ?_, h3⟩
    rw [List.drop_left' h2, List.take_left' (le_length _ _)]
  · rintro ⟨h1, h2, h3⟩
    refine ⟨p.take off, p.drop (off + k), ?_, by rw [List.length_take]; omega, h3⟩
    rw [← h2, ← List.drop_drop, List.take_append_drop, List.take_append_drop]

theorem le_ofLe (b : Bytes) : le b.length (ofLe b) = b := by
  induction b with
  | nil => rfl
  | cons x b ih =>
    have hx := x.toNat_lt
    rw [List.length_cons, le, ofLe]
    congr 1
    · apply UInt8.toNat_inj.mp
      rw [UInt8.toNat_ofNat']
      omega
    · rw [show (x.toNat + 256 * ofLe b) / 256 = ofLe b by omega, ih]

theorem ofLe_take (b : Bytes) (k : Nat) : ofLe (b.take k) = ofLe b % 256 ^ k := by
  rw [← List.take_append_drop k b, ofLe_append, List.take_append_drop]
  by_cases h : k ≤ b.length
  · rw [List.length_take, Nat.min_eq_left h, Nat.add_mul_mod_self_left, Nat.mod_eq_of_lt]
    have := ofLe_lt (b.take k)
    rwa [List.length_take, Nat.min_eq_left h] at this
  · rw [List.drop_of_length_le (by omega), ofLe, Nat.mul_zero, Nat.add_zero, Nat.mod_eq_of_lt]
    have := ofLe_lt (b.take k)
    rw [List.length_take, Nat.min_eq_right (by omega)] at this
    exact Nat.lt_of_lt_of_le this (Nat.pow_le_pow_right (by decide) (by omega))

/-- Where record `i` is in the packed records. -/
theorem flatten_drop (ms : List Mid) (rb lb nb i : Nat) (m : Mid) (more : Bytes) (h : ms[i]? = some m) :
    ∃ more', ((ms.map (fun m => le rb (word lb nb m))).flatten ++ more).drop (i * rb) = le rb (word lb nb m) ++ more' := by
  induction ms generalizing i with
  | nil => cases h
  | cons a ms ih =>
    rw [List.map_cons, List.flatten_cons, List.append_assoc]
    cases i with
    | zero =>
      cases h
      exact ⟨_, by rw [Nat.zero_mul]; rfl⟩
    | succ i =>
      obtain ⟨x, hx⟩ := ih i h
      refine ⟨x, ?_⟩
      rw [Nat.add_mul, Nat.one_mul, Nat.add_comm, ← List.drop_drop, List.drop_left' (le_length _ _), hx]

/-- C39. A page made by the packer is such a leaf: it lists the record numbers of the
packed entries in their order. (The record size leaves room for four bytes at the last
record.) -/
theorem packed_isLeaf (primary : Bool) (len pagesize : Nat) (rest : Bytes) (es : List Entry) (page page' : Bytes) (next : Nat)
    (h0 : 0 < len) (hlen : len < 2 ^ 15) (hes : Spec.Entries len es) (hn : es.length < 32768) (hps : 30 ≤ pagesize) (hps' : pagesize ≤ 65536)
    (hpl : page.length = pagesize) (hnext : Spec.At page 8 4 next) (w : Nat) (hw : Spec.IsWidth len es w)
    (hroom : es.length * w + 34 ≤ pagesize + w)
    (h : pack primary len pagesize rest es page = .ok (some page')) :
    Spec.IsLeaf page' (es.map (·.num)) next := by
  obtain ⟨hl1, hl2⟩ := pack_keeps_links _ _ _ _ _ _ _ hps hpl h
  have hwe := isWidth_unique hw (recBytes_isWidth len hlen es hes)
  obtain ⟨b1, b2, b3, b4, b5, b6, b7, b8⟩ := widths len h0 hlen es hes
  obtain ⟨ms, tail, hk, hsz, hp⟩ := packed_page _ _ _ _ _ _ _ h
  obtain ⟨hnums, hlr⟩ := packKeys_nums hk (fun e he => (hes e he).1)
  have hlinks : ((page.drop 4).take 8).length = 8 := by rw [List.length_take, List.length_drop]; omega
  generalize hlk : (page.drop 4).take 8 = links at *
  generalize hrb : recBytes len es = rb at *
  subst hwe
  generalize hlb : bits len = lb at *
  generalize hnb : w * 8 - lb - lb = nb at *
  generalize hfree : pagesize - 30 - w * es.length - tail.length = free at *
  constructor
  · exact ⟨2, ⟨[], 0 :: _, by rw [hp]; simp only [List.append_assoc]; rfl, rfl, by decide⟩, by decide⟩
  · rw [List.length_map]
    exact ⟨⟨le 2 2, _, by rw [hp]; simp only [List.append_assoc]; rfl, le_length _ _, by omega⟩, hn⟩
  · rw [at_iff] at hnext ⊢
    refine ⟨by omega, ?_, hnext.2.2⟩
    rw [← hnext.2.1]
    have e : ∀ p : Bytes, (p.drop 8).take 4 = ((p.drop 4).take 8).drop 4 := by
      intro p
      rw [List.drop_take, List.drop_drop]
    rw [e, e, hl2, hlk]
  · refine ⟨mask nb, w, ⟨le 2 2 ++ le 2 es.length ++ links ++ le 2 free, _, by rw [hp]; simp only [List.append_assoc]; rfl,
      by simp only [List.length_append, le_length, hlinks], mask_lt _⟩,
      ⟨le 2 2 ++ le 2 es.length ++ links ++ le 2 free ++ le 4 (mask nb) ++ le 2 (mask lb) ++ le 2 (mask lb) ++ le 2 nb ++ le 2 lb ++ le 2 lb, _,
        by rw [hp]; simp only [List.append_assoc]; rfl, by simp only [List.length_append, le_length, hlinks], by omega⟩, by omega, ?_⟩
    intro i x hx
    have hi : i < es.length := by
      have := (List.getElem?_eq_some_iff.mp hx).1
      rwa [List.length_map] at this
    have hiw : i * w + w ≤ es.length * w := by
      have := Nat.mul_le_mul_right w (Nat.succ_le_of_lt hi)
      rwa [Nat.succ_mul] at this
    rw [← hnums, List.getElem?_map] at hx
    obtain ⟨m, hm, rfl⟩ := Option.map_eq_some_iff.mp hx
    have hdrop30 : ∃ more, page'.drop (30 + i * w) = le w (word lb nb m) ++ more := by
      rw [← List.drop_drop, hp]
      rw [List.drop_left' (by simp only [List.length_append, le_length, hlinks])]
      exact flatten_drop ms w lb nb i m _ hm
    obtain ⟨more, hmore⟩ := hdrop30
    have hl4 : ((page'.drop (30 + i * w)).take 4).length = 4 := by
      rw [List.length_take, List.length_drop]
      omega
    refine ⟨ofLe ((page'.drop (30 + i * w)).take 4), ?_, ?_⟩
    · rw [at_iff]
      refine ⟨by omega, ?_, ?_⟩
      · have := le_ofLe ((page'.drop (30 + i * w)).take 4)
        rw [hl4] at this
        exact this.symm
      · have := ofLe_lt ((page'.drop (30 + i * w)).take 4)
        rwa [hl4] at this
    · have hmem : m ∈ ms := List.mem_of_getElem? hm
      obtain ⟨hm1, hm2⟩ := hlr m hmem
      have hnum : m.num < 2 ^ nb ∧ m.num < 2 ^ 32 := by
        have : m.num ∈ es.map (·.num) := by rw [← hnums]; exact List.mem_map_of_mem hmem
        obtain ⟨e, he, hee⟩ := List.mem_map.mp this
        rw [← hee]
        exact ⟨b8 e he, (hes e he).2⟩
      rw [and_mask, ofLe_take, hmore, ofLe_append, le_length, ofLe_le, word_eq lb nb m hnum.1 (by omega)]
      have hdvd1 : 2 ^ min nb 32 ∣ 256 ^ 4 := by
        rw [show (256 : Nat) ^ 4 = 2 ^ 32 by decide]
        exact Nat.pow_dvd_pow 2 (Nat.min_le_right _ _)
      have e256 : (256 : Nat) ^ w = 2 ^ (8 * w) := by rw [Nat.pow_mul]
      have hdvd2 : 2 ^ min nb 32 ∣ 256 ^ w := by
        rw [e256]
        exact Nat.pow_dvd_pow 2 (by omega)
      have hdvd3 : 2 ^ min nb 32 ∣ 2 ^ nb := Nat.pow_dvd_pow 2 (Nat.min_le_left _ _)
      rw [Nat.mod_mod_of_dvd _ hdvd1]
      obtain ⟨q, hq⟩ := hdvd2
      rw [hq, Nat.mul_assoc, Nat.add_mul_mod_self_left, ← hq, Nat.mod_mod_of_dvd _ (by rw [hq]; exact Nat.dvd_mul_right _ _)]
      obtain ⟨q, hq⟩ := hdvd3
      rw [hq, Nat.mul_left_comm, Nat.mul_add_mod, Nat.mod_eq_of_lt]
      rw [Nat.min_def]
      split
      · exact hnum.1
      · exact hnum.2

/-! ## An index the theorems apply to -/

instance (p : Bytes) (off k n : Nat) : Decidable (Spec.At p off k n) := decidable_of_iff' _ (at_iff p off k n)

/-- A leaf page of 40 bytes with two records of four bytes. -/
def exLeaf (next a b : Nat) : Bytes :=
  le 2 2 ++ le 2 2 ++ le 4 4294967295 ++ le 4 next ++ le 2 2 ++ le 4 65535 ++ le 2 1 ++ le 2 1 ++ le 2 16 ++ le 2 1 ++ le 2 1 ++ le 2 4 ++
    le 4 a ++ le 4 b ++ [0, 0]

/-- A branch page of 40 bytes above the block 80, with keys of one byte. -/
def exBranch : Bytes := le 2 0 ++ le 2 1 ++ le 4 4294967295 ++ le 4 4294967295 ++ [7] ++ le 4 0 ++ (le 4 80).reverse ++ List.replicate 19 0

def exIndex : Base where
  file := List.replicate 16 0 ++ le 4 40 ++ le 2 1 ++ List.replicate 18 0 ++ exBranch ++ exLeaf 120 5 65536 ++ exLeaf 4294967295 65537 3
  pagesize := 40
  v838 := false
  start := 16
  room := 10

theorem exLeaf1 : Spec.IsLeaf (exLeaf 120 5 65536) [5, 0] 120 where
  flag := ⟨2, by decide, by decide⟩
  count := by decide
  next := by decide
  recs := ⟨65535, 4, by decide, by decide, by decide, by
    intro i x hx
    match i, hx with
    | 0, hx => cases hx; exact ⟨5, by decide, by decide⟩
    | 1, hx => cases hx; exact ⟨65536, by decide, by decide⟩⟩

theorem exLeaf2 : Spec.IsLeaf (exLeaf 4294967295 65537 3) [1, 3] 4294967295 where
  flag := ⟨2, by decide, by decide⟩
  count := by decide
  next := by decide
  recs := ⟨65535, 4, by decide, by decide, by decide, by
    intro i x hx
    match i, hx with
    | 0, hx => cases hx; exact ⟨65537, by decide, by decide⟩
    | 1, hx => cases hx; exact ⟨3, by decide, by decide⟩⟩

example : Spec.Header exIndex 40 1 ∧ Spec.PageAt exIndex 40 exBranch ∧ Spec.At exBranch 2 2 1 ∧ Spec.Leftmost exIndex 1 40 80 ∧
    Spec.Leaves exIndex 80 [[5, 0], [1, 3]] ∧ [[5, 0], [1, 3]].flatten.Nodup ∧ (∀ n ∈ [[5, 0], [1, 3]].flatten, n < exIndex.room) ∧
    walk exIndex 5 = .ok (some [5, 0, 1, 3]) := by
  have hp0 : Spec.PageAt exIndex 40 exBranch := ⟨exIndex.file.take 40, exIndex.file.drop 80, by decide +kernel, by decide, by decide⟩
  have hp1 : Spec.PageAt exIndex 80 (exLeaf 120 5 65536) := ⟨exIndex.file.take 80, exIndex.file.drop 120, by decide +kernel, by decide, by decide⟩
  have hp2 : Spec.PageAt exIndex 120 (exLeaf 4294967295 65537 3) := ⟨exIndex.file.take 120, exIndex.file.drop 160, by decide +kernel, by decide, by decide⟩
  refine ⟨⟨by decide, by decide, by decide, by decide, by decide⟩, hp0, by decide, ?_, ?_, by decide, by decide, by decide⟩
  · exact .branch hp0 ⟨⟨0, by decide, by decide⟩, ⟨exBranch.take 17, exBranch.drop 21, by decide, by decide, by decide⟩⟩ (.leaf hp1 exLeaf1)
  · exact .more hp1 exLeaf1 (by decide) (.last hp2 exLeaf2)

end Verif.Index
