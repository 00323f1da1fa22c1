import Verif.Vendor.Spec
import Verif.Unicode.Theorems
import Verif.Cli.Theorems
import Verif.Tree.Theorems
import Verif.Config.HandleTheorems

/-! # Property theorems: vendor configurations (C85) -/

namespace Verif.Vendor
open Verif Verif.Config Verif.Container Verif.Container.Spec Verif.Unicode.Spec Verif.Tree

/-! ## Texts -/

theorem chars_bytes : ∀ (s : Str), (∀ c ∈ s, Char.toNat c < 256) → chars (bytes s) = s
  | [], _ => rfl
  | c :: s, h => by
    have h1 := chars_bytes s (fun d hd => h d (List.mem_cons_of_mem _ hd))
    have h2 := h c (List.mem_cons_self ..)
    unfold chars bytes at h1 ⊢
    simp only [List.map_cons]
    rw [h1]
    congr 1
    rw [UInt8.toNat_ofNat', Nat.mod_eq_of_lt (by omega)]
    exact Char.ofNat_toNat c

theorem byte_quoted (v : Str) (h : ∀ c ∈ v, Char.toNat c < 256) : ∀ c ∈ Tree.Spec.quoted v, Char.toNat c < 256 := by
  intro c hc
  unfold Tree.Spec.quoted at hc
  simp only [List.mem_append, List.mem_flatMap, List.mem_cons, List.not_mem_nil, or_false] at hc
  rcases hc with (rfl | ⟨x, hx, hc⟩) | rfl
  · decide
  · split at hc
    · simp only [List.mem_cons, List.not_mem_nil, or_false] at hc
      rcases hc with rfl | rfl <;> decide
    · simp only [List.mem_cons, List.not_mem_nil, or_false] at hc
      subst hc
      exact h _ hx
  · decide

theorem byte_leaf (t : NType) (v : Str) (h : ∀ c ∈ v, Char.toNat c < 256) : ∀ c ∈ outLeaf t v, Char.toNat c < 256 := by
  by_cases ht : t = .string
  · subst ht; rw [outLeaf_string]; exact byte_quoted v h
  · intro c hc
    have : outLeaf t v = v ∨ outLeaf t v = [] := by
      cases t <;> simp [outLeaf] at ht ⊢
    rcases this with e | e <;> rw [e] at hc
    · exact h c hc
    · cases hc

theorem pathValue_ok : ∀ (path : List Nat) (n : Node) (b : Bytes), Spec.valueAt n path = some b → pathValue n path = .ok b
  | [], n, b, h => by
    unfold Spec.valueAt Spec.nodeAt at h
    simp only [Option.map_some, Option.some.injEq] at h
    rw [pathValue, ← h]; rfl
  | i :: is, n, b, h => by
    unfold Spec.valueAt at h
    rw [Spec.nodeAt] at h
    cases hk : n.kids[i]? with
    | none => rw [hk] at h; cases h
    | some k =>
      rw [hk] at h
      rw [pathValue, nth, hk]
      exact pathValue_ok is k b h

theorem valueAt_cons {n : Node} {i : Nat} {is : List Nat} {b : Bytes} (h : Spec.valueAt n (i :: is) = some b) :
    ∃ k, n.kids[i]? = some k ∧ Spec.valueAt k is = some b := by
  unfold Spec.valueAt at h ⊢
  rw [Spec.nodeAt] at h
  cases hk : n.kids[i]? with
  | none => rw [hk] at h; cases h
  | some k => rw [hk] at h; exact ⟨k, rfl, h⟩

theorem stoi_ok {b : Bytes} {n : Nat} (h : Spec.Number b n) : Cli.stoi b = .ok (n : Int) := by
  obtain ⟨ds, h1, h2, rfl, rfl, h3⟩ := h
  have := Cli.readInt_number false ds h1 h2 [] (by simp)
  simp only [Bool.false_eq_true, if_false, List.nil_append, List.append_nil] at this
  unfold Cli.stoi
  rw [this]
  simp only
  rw [if_pos]
  unfold Cli.fitsInt
  simp only [Bool.and_eq_true, decide_eq_true_eq]
  omega

mutual
theorem byte_body : ∀ (n : Node) (first : Bool), Spec.ByteValues n → ∀ c ∈ Tree.body n first, Char.toNat c < 256
  | .mk t v [], first, h, c, hc => by
    cases h with
    | mk hv _ => exact byte_leaf t v hv c (by rw [Tree.body] at hc; exact hc)
  | .mk t v (k :: ks), first, h, c, hc => by
    cases h with
    | mk hv hk =>
      rw [Tree.body] at hc
      simp only [List.mem_append, List.mem_cons, List.not_mem_nil, or_false] at hc
      rcases hc with (((hc | rfl) | hc) | hc) | rfl
      · split at hc
        · cases hc
        · simp only [crlf, List.mem_cons, List.not_mem_nil, or_false] at hc
          rcases hc with rfl | rfl <;> decide
      · decide
      · exact byte_kids (k :: ks) hk c hc
      · split at hc
        · simp only [crlf, List.mem_cons, List.not_mem_nil, or_false] at hc
          rcases hc with rfl | rfl <;> decide
        · cases hc
      · decide
theorem byte_kids : ∀ (ks : List Node), (∀ k ∈ ks, Spec.ByteValues k) → ∀ c ∈ bodyKids ks, Char.toNat c < 256
  | [], _, c, hc => by rw [bodyKids] at hc; cases hc
  | k :: ks, h, c, hc => by
    rw [bodyKids] at hc
    simp only [List.mem_append] at hc
    rcases hc with (hc | hc) | hc
    · exact byte_body k false (h k (List.mem_cons_self ..)) c hc
    · split at hc
      · cases hc
      · simp only [List.mem_cons, List.not_mem_nil, or_false] at hc
        subst hc; decide
    · exact byte_kids ks (fun x hx => h x (List.mem_cons_of_mem _ hx)) c hc
end

/-- The text in a file is read, whichever encoding it has. -/
theorem getTree_ok {b : Bytes} {n : Node} (h : Spec.Doc b n) : getTree b = .ok (.list [n]) := by
  obtain ⟨h1, h2, h3, h4⟩ := h
  have hb : ∀ c ∈ outtext (.list [n]), Char.toNat c < 256 := by
    simp only [outtext, Node.kids, out_eq, List.nil_append]
    exact byte_body n _ h3
  have ht : parseText (chars (bytes (outtext (.list [n])))) = .ok (.list [n]) := by
    rw [chars_bytes _ hb]; exact print_parse_partial n h1 h2
  have key : bufferText b = .ok (bytes (outtext (.list [n]))) := by
    unfold bufferText
    rcases h4 with rfl | ⟨cps, hc, he, rfl⟩
    · simp [bytes]
    · rw [if_neg (by simp), if_pos (by simp)]
      have := Unicode.utf16_to_utf8 cps hc [0xFF, 0xFE]
      rw [← he] at this
      exact this
  rw [getTree, key]
  exact ht

/-- A file without either mark at its beginning is not read. -/
theorem getTree_unmarked {b : Bytes} (h1 : ¬ [0xEF, 0xBB, 0xBF] <+: b) (h2 : ¬ [0xFF, 0xFE] <+: b) : getTree b = .throw := by
  have k : ∀ p : Bytes, ¬ p <+: b → b.take p.length ≠ p := fun p hp e => hp (by rw [← e]; exact List.take_prefix ..)
  rw [getTree, bufferText, if_neg (show b.take 3 ≠ _ from k _ h1), if_neg (show b.take 2 ≠ _ from k _ h2)]
  rfl

/-! ## The metadata -/

theorem nodeGeneral_word : nodeGeneral = utf8Text Spec.general := by decide +kernel

theorem general_name : Unicode.Spec.Name Spec.general := by unfold Unicode.Spec.Name; decide +kernel

theorem nth_ok {n k : Node} {i : Nat} (h : n.kids[i]? = some k) : nth n i = .ok k := by rw [nth, h]

theorem confInfo_ok {m node : Node} {g : Nat} {i : Info} {v : Bytes} {ver : Nat} (hn : m.kids[3 + g]? = some node)
    (h0 : Spec.valueAt m [3 + g, 1, 1, 0] = some v) (hv : Spec.Number v ver)
    (h1 : Spec.valueAt m [3 + g, 1, 1, 1, 1, 2] = some i.name)
    (h2 : Spec.valueAt m [3 + g, 1, 1, if ver = 15 then 11 else 14] = some i.supplier)
    (h3 : Spec.valueAt m [3 + g, 1, 1, if ver = 15 then 12 else 15] = some i.version) :
    confInfo node = .ok i := by
  have down : ∀ {path : List Nat} {b : Bytes}, Spec.valueAt m ((3 + g) :: path) = some b → Spec.valueAt node path = some b := by
    intro path b h
    obtain ⟨k, hk, h⟩ := valueAt_cons h
    rw [hn] at hk; cases hk; exact h
  obtain ⟨a, ha, h0⟩ := valueAt_cons (down h0)
  obtain ⟨c, hc, h0⟩ := valueAt_cons h0
  have down2 : ∀ {path : List Nat} {b : Bytes}, Spec.valueAt m ((3 + g) :: 1 :: 1 :: path) = some b → pathValue c path = .ok b := by
    intro path b h
    obtain ⟨a', ha', h⟩ := valueAt_cons (down h)
    rw [ha] at ha'; cases ha'
    obtain ⟨c', hc', h⟩ := valueAt_cons h
    rw [hc] at hc'; cases hc'
    exact pathValue_ok _ _ _ h
  have hver : (if (ver : Int) = 15 then 11 else 14) = (if ver = 15 then 11 else 14) := by
    by_cases e : ver = 15
    · simp [e]
    · rw [if_neg e, if_neg (by omega)]
  have hver2 : (if (ver : Int) = 15 then 12 else 15) = (if ver = 15 then 12 else 15) := by
    by_cases e : ver = 15
    · simp [e]
    · rw [if_neg e, if_neg (by omega)]
  rw [confInfo, nth_ok ha, Outcome.ok_bind, nth_ok hc, Outcome.ok_bind, pathValue_ok _ _ _ h0, Outcome.ok_bind, stoi_ok hv, Outcome.ok_bind, down2 h1, Outcome.ok_bind, hver, down2 h2, Outcome.ok_bind, hver2,
    down2 h3, Outcome.ok_bind]

theorem findGeneral_skip (m : Node) : ∀ (g j k : Nat),
    (∀ x, j ≤ x → x < j + g → ∃ ty, Spec.valueAt m [3 + x, 0] = some (utf8Text ty) ∧ Unicode.Spec.Name ty ∧ ¬ SameText ty Spec.general) →
    findGeneral m (g + k) j = findGeneral m k (j + g)
  | 0, j, k, _ => by rw [Nat.zero_add]; rfl
  | g + 1, j, k, h => by
    obtain ⟨ty, h1, h2, h3⟩ := h j (Nat.le_refl _) (by omega)
    obtain ⟨node, hn, h1⟩ := valueAt_cons h1
    rw [show g + 1 + k = (g + k) + 1 by omega, findGeneral, nth_ok hn, Outcome.ok_bind, pathValue_ok _ _ _ h1,
      Outcome.ok_bind, nodeGeneral_word, (Unicode.equalIC_iff ty _ h2 general_name).2.2 h3, Outcome.ok_bind]
    simp only [Bool.false_eq_true, if_false]
    rw [findGeneral_skip m g (j + 1) k (fun x hx hx2 => h x (by omega) (by omega))]
    congr 1
    omega

theorem buildMeta_ok {b : Bytes} {m : Node} {i : Info} (hd : Spec.Doc b m) (hs : Spec.Says m i) : buildMeta b = .ok i := by
  obtain ⟨num, count, g, h1, h2, h3, h4, ⟨ty, h5, h6, h7⟩, v, ver, h8, h9, h10, h11, h12⟩ := hs
  rw [buildMeta, getTree_ok hd, Outcome.ok_bind, nth_ok (show (Node.list [m]).kids[0]? = some m from rfl),
    Outcome.ok_bind, pathValue_ok _ _ _ h1, Outcome.ok_bind, stoi_ok h2, Outcome.ok_bind, Int.toNat_natCast]
  obtain ⟨r, rfl⟩ : ∃ r, count = g + (r + 1) := ⟨count - g - 1, by omega⟩
  rw [findGeneral_skip m g 0 (r + 1) (fun x _ hx => h4 x (by omega)), Nat.zero_add]
  obtain ⟨node, hn, h5⟩ := valueAt_cons h5
  rw [findGeneral, nth_ok hn, Outcome.ok_bind, pathValue_ok _ _ _ h5, Outcome.ok_bind, nodeGeneral_word,
    (Unicode.equalIC_iff ty _ h6 general_name).1.2 h7, Outcome.ok_bind]
  simp only [if_true]
  exact confInfo_ok hn h8 h9 h10 h11 h12

/-! ## The container -/

theorem filled_open {cd : Codec} {b : Bytes} {cs : Contents} (h : Spec.Filled cd b cs) (fuel : Nat) (hf : LAST ≤ fuel) :
    16 ≤ b.length ∧ ∃ k, openCatalog fuel b = .ok (some (.container k)) ∧
      ∀ n, Unicode.Spec.Name n → content cd fuel k (utf8Text n) = .ok (some (lookup cs n)) := by
  obtain ⟨f0, ops, k, k', hf0, hal, hse, hfl, rfl, rfl⟩ := h
  have split : ∀ (ops : List UserOp) (k0 : Catalog), Allowed cd f0 k0 (ops ++ [.flush]) → session cd f0 k0 ops = .ok (some k) →
      Allowed cd f0 k0 ops ∧ OpOk cd k .flush := by
    intro ops
    induction ops with
    | nil =>
      intro k0 h hs
      rw [session] at hs
      cases hs
      exact ⟨trivial, h.1⟩
    | cons op ops ih =>
      intro k0 h hs
      rw [List.cons_append] at h
      obtain ⟨ha, hb⟩ := h
      rw [session] at hs
      unfold Allowed
      generalize step cd f0 k0 op = r at hb hs
      match r with
      | .ok (some (.container k1)) =>
        obtain ⟨h1, h2⟩ := ih k1 hb hs
        exact ⟨⟨ha, h1⟩, h2⟩
      | .ok (some .other) => cases hs
      | .ok (some (.broken _)) => cases hs
      | .ok none => cases hs
      | .throw => cases hs
      | .ub => cases hs
  obtain ⟨ha, ho⟩ := split ops _ hal hse
  obtain ⟨k1, s1, ls1, e1, i1, d1, hs1⟩ := session_ok f0 hf0 ops blankCatalog _ [] (blank_inv cd) (by decide) ha
  rw [hse] at e1
  cases e1
  obtain ⟨k2, s2, ls2, e2, i2, hcl, hs2, _, hfm, hem, hx⟩ := flush_ok i1 ho f0 hf0
  rw [hfl] at e2
  cases e2
  obtain ⟨k3, ls3, e3, i3, hs3, _, hx3⟩ := open_ok i2 hcl hfm hem hx fuel hf
  have hlen := phys_length i2.phys
  refine ⟨by omega, k3, e3, ?_⟩
  intro n hn
  rw [content_ok i3 (by omega) fuel hf n hn, hs3, hs2, hs1]
  rfl

theorem asc_word (s : String) (h : ∀ c ∈ s.toList, Char.toNat c < 128) : Cli.asc s = utf8Text (Spec.word s) := by
  unfold Cli.asc Spec.word utf8Text
  rw [List.flatMap_map]
  generalize s.toList = l at h
  induction l with
  | nil => rfl
  | cons c l ih =>
    have := h c (List.mem_cons_self ..)
    rw [List.map_cons, List.flatMap_cons, ih (fun d hd => h d (List.mem_cons_of_mem _ hd)), utf8, if_pos this]
    rfl

theorem build_metadata {cd : Codec} {fuel : Nat} {o : Opening} {cs : Contents} {i : Info} (hm : Spec.Metadata cs i)
    (hg : ∀ n, Unicode.Spec.Name n → getFileIn cd fuel o (utf8Text n) = .ok (some (lookup cs n))) :
    build cd fuel o = .ok (some i) := by
  obtain ⟨rb, r, name, mb, m, h1, h2, h3, h4, h5, h6, h7⟩ := hm
  have hr := hg (Spec.word "root") (by unfold Unicode.Spec.Name; decide +kernel)
  rw [h1, ← asc_word "root" (by decide)] at hr
  have hn := hg name h4
  rw [h5] at hn
  have hp : pathValue (Node.list [r]) [0, 1] = .ok (utf8Text name) := by
    rw [pathValue, nth_ok (show (Node.list [r]).kids[0]? = some r from rfl), Outcome.ok_bind, pathValue_ok _ _ _ h3]
  unfold build
  rw [hr, Outcome.ok_bind]
  simp only
  rw [getTree_ok h2, Outcome.ok_bind, hp, Outcome.ok_bind, hn, Outcome.ok_bind]
  simp only
  rw [buildMeta_ok h6 h7, Outcome.ok_bind]

/-- A vendor configuration is read as what it is. -/
theorem build_config {cd : Codec} {b : Bytes} {i : Info} (h : Spec.Config cd b i) (fuel : Nat) (hf : LAST ≤ fuel) :
    ∃ o, openCatalog fuel b = .ok (some o) ∧ build cd fuel o = .ok (some i) := by
  obtain ⟨cs, vb, vt, v, ver, h1, h2, h3, h4, h5, h6⟩ := h
  obtain ⟨_, k, ho, hc⟩ := filled_open h1 fuel hf
  refine ⟨.container k, ho, ?_⟩
  have hv : getVersion cd fuel (.container k) = .ok (some (ver : Int)) := by
    unfold getVersion
    rw [asc_word "version" (by decide), lookupIn, hc _ (by unfold Unicode.Spec.Name; decide +kernel), h2, Outcome.ok_bind]
    simp only
    rw [getTree_ok h3, Outcome.ok_bind, pathValue, nth_ok (show (Node.list [vt]).kids[0]? = some vt from rfl),
      Outcome.ok_bind, pathValue_ok _ _ _ h4, Outcome.ok_bind, stoi_ok h5, Outcome.ok_bind]
  rcases h6 with ⟨hge, hm⟩ | ⟨hlt, inner, cs', hi, hf', hm⟩
  · refine build_metadata hm ?_
    intro n hn
    unfold getFileIn
    rw [hv, Outcome.ok_bind]
    simp only
    rw [if_neg (by omega), lookupIn, hc n hn]
  · refine build_metadata hm ?_
    intro n hn
    obtain ⟨hl, k2, ho2, hc2⟩ := filled_open hf' fuel hf
    unfold getFileIn
    rw [hv, Outcome.ok_bind]
    simp only
    rw [if_pos (by omega), asc_word "metadata" (by decide), lookupIn, hc _ (by unfold Unicode.Spec.Name; decide +kernel), hi,
      Outcome.ok_bind]
    simp only [getNested]
    unfold openCatalog at ho2
    simp only at ho2
    rw [if_neg (by omega)] at ho2
    obtain ⟨t, ht, ho2⟩ := Verif.Container.bind_ok ho2
    rw [ht, Outcome.ok_bind]
    cases t with
    | false => simp at ho2
    | true =>
      simp only [if_true] at ho2 ⊢
      rw [ho2, Outcome.ok_bind]
      simp only
      rw [lookupIn, hc2 n hn]

/-! ## C85: listing and saving -/

theorem unpacked_ok {w : World} {f : VFile} {b : Bytes} (h : Spec.Packed w f b) : unpacked w f = .ok (b, true) := by
  obtain ⟨raw, plain, h1, h2, h3⟩ := h
  obtain ⟨h0, hrun, ⟨h', ho, i, hi, hg⟩, _⟩ := Opening.opening_partial h1 h2 []
  rw [Opening.Spec.run] at hrun
  cases hrun
  unfold unpacked
  rw [ho, Outcome.ok_bind]
  simp only [if_true]
  have hs : streamData h' = .ok plain := by
    unfold streamData
    rw [hi]
    simp only
    rw [Handle.data, hg]
  rw [hs, Outcome.ok_bind, h3]

theorem create_ok {w : World} {f : VFile} {b : Bytes} {i : Info} (h : Spec.IsVendor w f b i) (fuel : Nat) (hf : LAST ≤ fuel) :
    create w fuel f = .ok (some i) := by
  obtain ⟨o, ho, hb⟩ := build_config h.2 fuel hf
  unfold create
  rw [unpacked_ok h.1, Outcome.ok_bind]
  simp only [if_true]
  rw [ho, Outcome.ok_bind]
  exact hb

theorem findLoop_ok (w : World) (fuel : Nat) (hf : LAST ≤ fuel) (what : VFile → Info) (rest : List VFile) :
    ∀ (fs : List VFile) (acc : List (VFile × Info)), (∀ f ∈ fs, f.key.length = 73 → ∃ b, Spec.IsVendor w f b (what f)) →
      findLoop w fuel (fs ++ rest) acc = findLoop w fuel rest (acc ++ Spec.vendors what fs)
  | [], acc, _ => by simp [Spec.vendors]
  | f :: fs, acc, h => by
    have ih := fun acc => findLoop_ok w fuel hf what rest fs acc (fun g hg => h g (List.mem_cons_of_mem _ hg))
    rw [List.cons_append, findLoop]
    by_cases hk : f.key.length = 73
    · obtain ⟨b, hb⟩ := h f (List.mem_cons_self ..) hk
      rw [if_pos hk, create_ok hb fuel hf]
      simp only
      rw [ih]
      simp [Spec.vendors, hk]
    · rw [if_neg hk, ih]
      simp [Spec.vendors, hk]

/-- **C85 (partial): listing.** If every file with a name of 73 bytes, first of the configuration being edited and then of
the main one, is a vendor configuration, the list has one entry for each of them in this order, with the name, the
vendor and the version that its metadata say; and asking again gives the same list. Missing: a file with such a name
that cannot be read as a vendor configuration (`damaged_hides_all`, `listed_twice`, `short_count_ub`). -/
theorem listed_partial (w : World) (fuel : Nat) (hf : LAST ≤ fuel) (save main : List VFile) (what : VFile → Info)
    (h : ∀ f ∈ save ++ main, f.key.length = 73 → ∃ b, Spec.IsVendor w f b (what f)) :
    supplierConfigs w fuel save main ⟨[], false⟩ = .ok (some (⟨Spec.vendors what (save ++ main), true⟩, true)) ∧
    ∀ (w' : World) (save' main' : List VFile),
      supplierConfigs w' fuel save' main' ⟨Spec.vendors what (save ++ main), true⟩ =
        .ok (some (⟨Spec.vendors what (save ++ main), true⟩, true)) := by
  refine ⟨?_, fun _ _ _ => rfl⟩
  have := findLoop_ok w fuel hf what [] (save ++ main) [] h
  rw [List.append_nil] at this
  unfold supplierConfigs
  rw [if_neg (by simp)]
  simp only
  rw [this, List.nil_append, findLoop, Outcome.ok_bind]

/-- **C85, negation.** One file with a name of 73 bytes that cannot be read makes listing fail, however many good ones
there are; the good ones before it are remembered. -/
theorem damaged_hides_all (w : World) (fuel : Nat) (hf : LAST ≤ fuel) (save main pre post : List VFile) (f : VFile)
    (what : VFile → Info) (he : save ++ main = pre ++ f :: post) (hk : f.key.length = 73)
    (h : ∀ f ∈ pre, f.key.length = 73 → ∃ b, Spec.IsVendor w f b (what f)) (hd : create w fuel f = .throw)
    (old : List (VFile × Info)) :
    supplierConfigs w fuel save main ⟨old, false⟩ = .ok (some (⟨old ++ Spec.vendors what pre, false⟩, false)) := by
  unfold supplierConfigs
  rw [if_neg (by simp)]
  simp only
  rw [he, findLoop_ok w fuel hf what _ pre old h, findLoop, if_pos hk, hd, Outcome.ok_bind]

/-- Files whose contents cannot be inflated, or that have no file `version` in them, are such files. -/
theorem damaged (w : World) (fuel : Nat) (f : VFile) (b : Bytes) (h : unpacked w f = .ok (b, false)) : create w fuel f = .throw := by
  unfold create
  rw [h]
  rfl

theorem no_version (w : World) (fuel : Nat) (hf : LAST ≤ fuel) (f : VFile) (b : Bytes) (cs : Contents) (h : Spec.Packed w f b)
    (hc : Spec.Filled w.cd b cs) (hv : lookup cs (Spec.word "version") = none) : create w fuel f = .throw := by
  obtain ⟨_, k, ho, hc⟩ := filled_open hc fuel hf
  unfold create
  rw [unpacked_ok h, Outcome.ok_bind]
  simp only [if_true]
  rw [ho, Outcome.ok_bind]
  simp only
  have : getVersion w.cd fuel (.container k) = .throw := by
    unfold getVersion
    rw [asc_word "version" (by decide), lookupIn, hc _ (by unfold Unicode.Spec.Name; decide +kernel), hv, Outcome.ok_bind]
  unfold build getFileIn
  rw [this]
  rfl

/-- **C85, negation.** After a failure, when the file has become readable, the list has the good ones before it twice. -/
theorem listed_twice (w w' : World) (fuel : Nat) (hf : LAST ≤ fuel) (save main pre post : List VFile) (f : VFile)
    (what : VFile → Info) (he : save ++ main = pre ++ f :: post) (hk : f.key.length = 73)
    (h : ∀ f ∈ pre, f.key.length = 73 → ∃ b, Spec.IsVendor w f b (what f)) (hd : create w fuel f = .throw)
    (h' : ∀ f ∈ save ++ main, f.key.length = 73 → ∃ b, Spec.IsVendor w' f b (what f)) :
    ∃ st, supplierConfigs w fuel save main ⟨[], false⟩ = .ok (some (st, false)) ∧
      supplierConfigs w' fuel save main st =
        .ok (some (⟨Spec.vendors what pre ++ Spec.vendors what (save ++ main), true⟩, true)) := by
  refine ⟨_, damaged_hides_all w fuel hf save main pre post f what he hk h hd [], ?_⟩
  have := findLoop_ok w' fuel hf what [] (save ++ main) (Spec.vendors what pre) h'
  rw [List.append_nil] at this
  unfold supplierConfigs
  rw [if_neg (by simp)]
  simp only [List.nil_append]
  rw [this, findLoop, Outcome.ok_bind]

/-- **C85, negation.** If the metadata count more nodes than there are and the general one is missing, reading them is undefined. -/
theorem short_count_ub {b : Bytes} {m : Node} {num : Bytes} {count g : Nat} (hd : Spec.Doc b m)
    (h1 : Spec.valueAt m [2] = some num) (h2 : Spec.Number num count) (hg : m.kids.length = 3 + g) (hc : g < count)
    (h : ∀ j, j < g → ∃ ty, Spec.valueAt m [3 + j, 0] = some (utf8Text ty) ∧ Unicode.Spec.Name ty ∧ ¬ SameText ty Spec.general) :
    buildMeta b = .ub := by
  rw [buildMeta, getTree_ok hd, Outcome.ok_bind, nth_ok (show (Node.list [m]).kids[0]? = some m from rfl),
    Outcome.ok_bind, pathValue_ok _ _ _ h1, Outcome.ok_bind, stoi_ok h2, Outcome.ok_bind, Int.toNat_natCast]
  obtain ⟨r, rfl⟩ : ∃ r, count = g + (r + 1) := ⟨count - g - 1, by omega⟩
  rw [findGeneral_skip m g 0 (r + 1) (fun x _ hx => h x (by omega)), Nat.zero_add, findGeneral, nth,
    List.getElem?_eq_none (by omega)]
  rfl

/-- Without a general node a configuration is listed with an empty name, vendor and version. -/
theorem nameless {b : Bytes} {m : Node} {num : Bytes} {count : Nat} (hd : Spec.Doc b m)
    (h1 : Spec.valueAt m [2] = some num) (h2 : Spec.Number num count)
    (h : ∀ j, j < count → ∃ ty, Spec.valueAt m [3 + j, 0] = some (utf8Text ty) ∧ Unicode.Spec.Name ty ∧ ¬ SameText ty Spec.general) :
    buildMeta b = .ok ⟨[], [], []⟩ := by
  rw [buildMeta, getTree_ok hd, Outcome.ok_bind, nth_ok (show (Node.list [m]).kids[0]? = some m from rfl),
    Outcome.ok_bind, pathValue_ok _ _ _ h1, Outcome.ok_bind, stoi_ok h2, Outcome.ok_bind, Int.toNat_natCast]
  have := findGeneral_skip m count 0 0 (fun x _ hx => h x (by omega))
  rw [Nat.add_zero] at this
  rw [this, findGeneral]

/-- **C85 (partial): saving.** If the listed configurations differ in name or version and their files can be created, each file
then has the whole container in it, unpacked, all are reported saved, and no other file has changed.
Missing: configurations with the same name and version (`same_name_overwritten`), files that cannot be created
(`not_created_reported_saved`), configurations that cannot be inflated. -/
theorem saved_partial (w : World) (creatable : Bytes → Bool) (cont : VFile → Bytes) :
    ∀ (l : List (VFile × Info)) (d : Disk), (∀ p ∈ l, Spec.Packed w p.1 (cont p.1) ∧ creatable (Spec.target p.2) = true) →
      l.Pairwise (fun p q => Spec.target p.2 ≠ Spec.target q.2) →
      ∃ d', saveAll w creatable l d = .ok (d', List.replicate l.length true) ∧
        (∀ p ∈ l, d' (Spec.target p.2) = some (cont p.1)) ∧
        ∀ path, (∀ p ∈ l, path ≠ Spec.target p.2) → d' path = d path
  | [], d, _, _ => ⟨d, rfl, by simp, fun _ _ => rfl⟩
  | (f, i) :: l, d, h, hp => by
    rw [List.pairwise_cons] at hp
    obtain ⟨hpk, hcr⟩ := h (f, i) (List.mem_cons_self ..)
    obtain ⟨d', h1, h2, h3⟩ := saved_partial w creatable cont l (fun p => if p = Spec.target i then some (cont f) else d p)
      (fun p hp => h p (List.mem_cons_of_mem _ hp)) hp.2
    refine ⟨d', ?_, ?_, ?_⟩
    · rw [saveAll, saveToFile, unpacked_ok hpk, Outcome.ok_bind, Outcome.ok_bind]
      simp only at hcr
      simp only [show fileName i = Spec.target i from rfl, hcr, if_true]
      rw [h1]
      rfl
    · intro p hpm
      rcases List.mem_cons.1 hpm with rfl | hpm
      · rw [h3 _ (fun q hq => hp.1 q hq)]
        simp
      · exact h2 p hpm
    · intro path hpath
      rw [h3 path (fun p hp => hpath p (List.mem_cons_of_mem _ hp)), if_neg (hpath (f, i) (List.mem_cons_self ..))]

/-- **C85, negation.** Of two configurations with the same name and version, as when one is edited, only the last is
saved; both are reported saved. -/
theorem same_name_overwritten (w : World) (creatable : Bytes → Bool) (f g : VFile) (i j : Info) (b c : Bytes)
    (hf : Spec.Packed w f b) (hg : Spec.Packed w g c) (hn : i.name = j.name) (hv : i.version = j.version) (d : Disk) :
    ∃ d', saveAll w creatable [(f, i), (g, j)] d = .ok (d', [true, true]) ∧
      ∀ path, d' path ≠ d path → path = Spec.target i ∧ d' path = some c := by
  have e : fileName j = fileName i := by unfold fileName; rw [hn, hv]
  refine ⟨_, by rw [saveAll, saveToFile, unpacked_ok hf, Outcome.ok_bind, Outcome.ok_bind, saveAll, saveToFile, unpacked_ok hg, Outcome.ok_bind, Outcome.ok_bind, saveAll, Outcome.ok_bind, Outcome.ok_bind], ?_⟩
  intro path
  rw [e]
  cases creatable (fileName i) with
  | false => intro h; simp at h
  | true =>
    simp only [if_true]
    by_cases hpth : path = fileName i
    · rw [if_pos hpth]; exact fun _ => ⟨hpth, rfl⟩
    · rw [if_neg hpth, if_neg hpth]
      intro h; exact absurd rfl h

/-- **C85, negation.** A file that cannot be created is reported saved. -/
theorem not_created_reported_saved (w : World) (creatable : Bytes → Bool) (f : VFile) (b : Bytes) (hf : Spec.Packed w f b) (path : Bytes)
    (hc : creatable path = false) (d : Disk) : saveToFile w creatable f path d = .ok (d, true) := by
  rw [saveToFile, unpacked_ok hf, Outcome.ok_bind, hc]
  rfl

end Verif.Vendor
