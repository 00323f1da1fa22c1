import Verif.Vendor.Theorems

/-! # Examples: vendor configurations that meet the hypotheses of C85 -/

namespace Verif.Vendor
open Verif Verif.Config Verif.Container Verif.Container.Spec Verif.Unicode.Spec Verif.Tree

mutual
def wfb : Node → Bool
  | .mk t v [] => (decide (t = .empty) && decide (v = [])) || decide (t = .string) ||
    (decide (v ≠ []) && decide ('\x00' ∉ v) && (match v.head? with | some c => decide (c ∉ [' ', '\t', '\r', '\n']) | none => true) &&
      decide (t ≠ .unknown) && decide (classify v = t))
  | .mk t v (k :: ks) => decide (t = .list) && decide (v = []) &&
    (match k :: ks with | [.mk .empty _ []] => false | _ => true) && wfbs (k :: ks)
def wfbs : List Node → Bool
  | [] => true
  | k :: ks => wfb k && wfbs ks
end

mutual
theorem wfb_sound : ∀ n, wfb n = true → Tree.Spec.WellFormed n
  | .mk t v [], h => by
    rw [wfb] at h
    simp only [Bool.or_eq_true, Bool.and_eq_true, decide_eq_true_eq] at h
    rcases h with (⟨rfl, rfl⟩ | rfl) | ⟨⟨⟨⟨h1, h2⟩, h3⟩, h4⟩, h5⟩
    · exact .empty
    · exact .string v
    · refine .token ⟨h1, h2, ?_, h4, h5⟩
      intro c hc
      rw [hc] at h3
      simpa using h3
  | .mk t v (k :: ks), h => by
    rw [wfb] at h
    simp only [Bool.and_eq_true, decide_eq_true_eq] at h
    obtain ⟨⟨⟨rfl, rfl⟩, h3⟩, h4⟩ := h
    refine .list (wfbs_sound _ h4) ?_
    unfold Tree.Spec.NoBare
    split at h3
    · cases h3
    · rename_i hx
      split
      · rename_i hy; exact hx _ hy
      · trivial
theorem wfbs_sound : ∀ ks, wfbs ks = true → ∀ k ∈ ks, Tree.Spec.WellFormed k
  | [], _, k, hk => by cases hk
  | x :: xs, h, k, hk => by
    rw [wfbs, Bool.and_eq_true] at h
    rcases List.mem_cons.1 hk with e | hk
    · rw [e]; exact wfb_sound x h.1
    · exact wfbs_sound xs h.2 k hk
end

mutual
def byb : Node → Bool
  | .mk _ v ks => v.all (fun c => decide (c.toNat < 256)) && bybs ks
def bybs : List Node → Bool
  | [] => true
  | k :: ks => byb k && bybs ks
end

mutual
theorem byb_sound : ∀ n, byb n = true → Spec.ByteValues n
  | .mk t v ks, h => by
    rw [byb, Bool.and_eq_true, List.all_eq_true] at h
    exact .mk (fun c hc => by simpa using h.1 c hc) (bybs_sound ks h.2)
theorem bybs_sound : ∀ ks, bybs ks = true → ∀ k ∈ ks, Spec.ByteValues k
  | [], _, k, hk => by cases hk
  | x :: xs, h, k, hk => by
    rw [bybs, Bool.and_eq_true] at h
    rcases List.mem_cons.1 hk with e | hk
    · rw [e]; exact byb_sound x h.1
    · exact bybs_sound xs h.2 k hk
end

/-- A file with a text in it. -/
def exDoc (n : Node) : Bytes := [0xEF, 0xBB, 0xBF] ++ bytes (Tree.body n true)

theorem exDoc_doc (n : Node) (h1 : wfb n = true) (h2 : byb n = true) (h3 : n ≠ .mk .empty [] []) : Spec.Doc (exDoc n) n :=
  ⟨wfb_sound n h1, h3, byb_sound n h2, Or.inl (by
    simp only [exDoc, outtext, Node.kids, out_eq, List.nil_append]
    rfl)⟩

def exNum (s : String) : Node := .leaf .number s.toList
def exStr (s : String) : Node := .leaf .string s.toList

def exVersion : Node := .list [.list [exNum "216", exNum "0"]]
def exVersion80 : Node := .list [.list [exNum "80"]]
def exRoot : Node := .list [exNum "2", exStr "Meta", exNum "0"]
def exGeneral (ver : String) : Node :=
  .list [exNum ver, .list [exNum "0", .list [exNum "3", exNum "0", exStr "Trade"]], exNum "2", exNum "3", exNum "4", exNum "5", exNum "6",
    exNum "7", exNum "8", exNum "9", exNum "10", exStr "Old vendor", exStr "1.1", exNum "13", exStr "Vendor", exStr "2.0"]
def exMeta (ver : String) : Node :=
  .list [exNum "1", exNum "0", exNum "2", .list [.leaf .guid "00000000-0000-0000-0000-000000000000".toList, exNum "0"],
    .list [.leaf .guid "9CD510CD-abfc-11d4-9434-004095e12fc7".toList, .list [exNum "1", exGeneral ver]]]

def exOps : List UserOp :=
  [.put (Spec.word "version") (exDoc exVersion) 1, .put (Spec.word "root") (exDoc exRoot) 2, .put (Spec.word "meta") (exDoc (exMeta "37")) 3]

def exInnerOps : List UserOp :=
  [.put (Spec.word "root") (exDoc exRoot) 2, .put (Spec.word "meta") (exDoc (exMeta "15")) 3]

theorem allowed_flush {cd : Codec} {fuel : Nat} {k : Catalog} : ∀ (ops : List UserOp) (k0 : Catalog), Allowed cd fuel k0 ops →
    session cd fuel k0 ops = .ok (some k) → OpOk cd k .flush → Allowed cd fuel k0 (ops ++ [.flush]) := by
  intro ops
  induction ops with
  | nil =>
    intro k0 _ hs ho
    rw [session] at hs
    cases hs
    refine ⟨ho, ?_⟩
    split <;> trivial
  | cons op ops ih =>
    intro k0 h hs ho
    rw [List.cons_append]
    obtain ⟨ha, hb⟩ := h
    rw [session] at hs
    refine ⟨ha, ?_⟩
    generalize step cd fuel k0 op = r at hb hs
    match r with
    | .ok (some (.container k1)) => exact ih k1 hb hs ho
    | .ok (some .other) => cases hs
    | .ok (some (.broken _)) => cases hs
    | .ok none => cases hs
    | .throw => cases hs
    | .ub => cases hs

/-- The container after a history can be flushed. -/
def exRoom (ops : List UserOp) : Bool :=
  match session plainCodec LAST blankCatalog ops with
  | .ok (some k) => decide (extent k.cat + flushCost plainCodec k < LAST)
  | _ => false

theorem exFilled (ops : List UserOp) (h1 : Allowed plainCodec LAST blankCatalog ops) (h2 : exRoom ops = true) :
    ∃ b, Spec.Filled plainCodec b (ops.foldl after []) := by
  obtain ⟨k, s, ls, e, i, d, hs⟩ := session_ok LAST (Nat.le_refl _) ops blankCatalog _ [] (blank_inv plainCodec) (by decide) h1
  unfold exRoom at h2
  rw [e] at h2
  have ho : OpOk plainCodec k .flush := of_decide_eq_true h2
  obtain ⟨k', _, _, e2, _⟩ := flush_ok i ho LAST (Nat.le_refl _)
  exact ⟨_, LAST, ops, k, k', Nat.le_refl _, allowed_flush ops _ h1 e ho, e, e2, rfl, rfl⟩

def exInfo : Info := ⟨Cli.asc "Trade", Cli.asc "Vendor", Cli.asc "2.0"⟩
def exInfo15 : Info := ⟨Cli.asc "Trade", Cli.asc "Old vendor", Cli.asc "1.1"⟩

theorem exSays (ver : String) (n : Nat) (i : Info) (h1 : Spec.Number (Cli.asc ver) n)
    (h2 : Spec.valueAt (exMeta ver) [4, 1, 1, 0] = some (Cli.asc ver)) (h3 : Spec.valueAt (exMeta ver) [4, 1, 1, 1, 1, 2] = some i.name)
    (h4 : Spec.valueAt (exMeta ver) [4, 1, 1, if n = 15 then 11 else 14] = some i.supplier)
    (h5 : Spec.valueAt (exMeta ver) [4, 1, 1, if n = 15 then 12 else 15] = some i.version) : Spec.Says (exMeta ver) i := by
  refine ⟨Cli.asc "2", 2, 1, rfl, ⟨[2], by decide +kernel⟩, by decide, ?_, ?_, Cli.asc ver, n, h2, h1, h3, h4, h5⟩
  · intro j hj
    obtain rfl : j = 0 := by omega
    exact ⟨Spec.word "00000000-0000-0000-0000-000000000000", rfl, by unfold Unicode.Spec.Name; decide +kernel, by decide +kernel⟩
  · exact ⟨Spec.word "9CD510CD-abfc-11d4-9434-004095e12fc7", rfl, by unfold Unicode.Spec.Name; decide +kernel, by decide +kernel⟩

theorem exMetadata (ver : String) (i : Info) (cs : Contents) (hs : Spec.Says (exMeta ver) i) (hw : wfb (exMeta ver) = true)
    (hb : byb (exMeta ver) = true) (h1 : lookup cs (Spec.word "root") = some (exDoc exRoot))
    (h2 : lookup cs (Spec.word "Meta") = some (exDoc (exMeta ver))) : Spec.Metadata cs i :=
  ⟨exDoc exRoot, exRoot, Spec.word "Meta", exDoc (exMeta ver), exMeta ver, h1,
    exDoc_doc _ (by decide +kernel) (by decide +kernel) (by simp [exRoot]), by decide +kernel,
    by unfold Unicode.Spec.Name; decide +kernel, h2, exDoc_doc _ hw hb (by simp [exMeta]), hs⟩

/-- A container of format 8.1. -/
theorem exConfig : ∃ b, Spec.Config plainCodec b exInfo := by
  obtain ⟨b, hb⟩ := exFilled exOps (by decide +kernel) (by decide +kernel)
  exact ⟨b, _, exDoc exVersion, exVersion, Cli.asc "216", 216, hb,
    by decide +kernel, exDoc_doc _ (by decide +kernel) (by decide +kernel) (by simp [exVersion]), by decide +kernel,
    ⟨[2, 1, 6], by decide +kernel⟩, Or.inl ⟨by decide, exMetadata "37" _ _
      (exSays "37" 37 _ ⟨[3, 7], by decide +kernel⟩ (by decide +kernel) (by decide +kernel) (by decide +kernel) (by decide +kernel)) (by decide +kernel) (by decide +kernel) (by decide +kernel) (by decide +kernel)⟩⟩

/-- The container after a history, flushed. -/
def exFlushed (ops : List UserOp) : Outcome (Option Bytes) := do
  match ← session plainCodec LAST blankCatalog ops with
  | none => .ok none
  | some k => do
    match ← flush plainCodec LAST k with
    | none => .ok none
    | some k' => .ok (some k'.cat.data.data)

theorem exFilled_eq (ops : List UserOp) (b : Bytes) (h1 : Allowed plainCodec LAST blankCatalog ops) (h2 : exRoom ops = true)
    (h3 : exFlushed ops = .ok (some b)) : Spec.Filled plainCodec b (ops.foldl after []) := by
  obtain ⟨k, s, ls, e, i, d, hs⟩ := session_ok LAST (Nat.le_refl _) ops blankCatalog _ [] (blank_inv plainCodec) (by decide) h1
  unfold exRoom at h2
  rw [e] at h2
  have ho : OpOk plainCodec k .flush := of_decide_eq_true h2
  obtain ⟨k', _, _, e2, _⟩ := flush_ok i ho LAST (Nat.le_refl _)
  unfold exFlushed at h3
  rw [e, Outcome.ok_bind] at h3
  simp only at h3
  rw [e2, Outcome.ok_bind] at h3
  cases h3
  exact ⟨LAST, ops, k, k', Nat.le_refl _, allowed_flush ops _ h1 e ho, e, e2, rfl, rfl⟩

/-- The flushed container with the two files of `exInnerOps`. -/
def exInner : Bytes :=
  [255, 255, 255, 127, 0, 2, 0, 0, 1, 0, 0, 0, 0, 0, 0, 0, 13, 10, 48, 48, 48, 48, 48, 48, 49, 56, 32, 48, 48, 48,
    48, 48, 50, 48, 48, 32, 55, 102, 102, 102, 102, 102, 102, 102, 32, 13, 10, 93, 2, 0, 0, 47, 2, 0, 0, 255, 255,
    255, 127, 124, 3, 0, 0, 156, 2, 0, 0, 255, 255, 255, 127] ++
  List.replicate 488 0 ++
  [13, 10, 48, 48, 48, 48, 48, 48, 48, 102, 32, 48, 48, 48, 48, 48, 48, 48, 102, 32, 55, 102, 102, 102, 102, 102,
    102, 102, 32, 13, 10, 239, 187, 191, 123, 50, 44, 34, 77, 101, 116, 97, 34, 44, 48, 125, 13, 10, 48, 48, 48, 48,
    48, 48, 50, 48, 32, 48, 48, 48, 48, 48, 48, 50, 48, 32, 55, 102, 102, 102, 102, 102, 102, 102, 32, 13, 10, 2, 0,
    0, 0, 0, 0, 0, 0, 2, 0, 0, 0, 0, 0, 0, 0, 0, 0, 0, 0, 114, 0, 111, 0, 111, 0, 116, 0, 0, 0, 0, 0, 13, 10, 48, 48,
    48, 48, 48, 48, 99, 49, 32, 48, 48, 48, 48, 48, 48, 99, 49, 32, 55, 102, 102, 102, 102, 102, 102, 102, 32, 13, 10,
    239, 187, 191, 123, 49, 44, 48, 44, 50, 44, 13, 10, 123, 48, 48, 48, 48, 48, 48, 48, 48, 45, 48, 48, 48, 48, 45,
    48, 48, 48, 48, 45, 48, 48, 48, 48, 45, 48, 48, 48, 48, 48, 48, 48, 48, 48, 48, 48, 48, 44, 48, 125, 44, 13, 10,
    123, 57, 67, 68, 53, 49, 48, 67, 68, 45, 97, 98, 102, 99, 45, 49, 49, 100, 52, 45, 57, 52, 51, 52, 45, 48, 48, 52,
    48, 57, 53, 101, 49, 50, 102, 99, 55, 44, 13, 10, 123, 49, 44, 13, 10, 123, 49, 53, 44, 13, 10, 123, 48, 44, 13,
    10, 123, 51, 44, 48, 44, 34, 84, 114, 97, 100, 101, 34, 125, 13, 10, 125, 44, 50, 44, 51, 44, 52, 44, 53, 44, 54,
    44, 55, 44, 56, 44, 57, 44, 49, 48, 44, 34, 79, 108, 100, 32, 118, 101, 110, 100, 111, 114, 34, 44, 34, 49, 46,
    49, 34, 44, 49, 51, 44, 34, 86, 101, 110, 100, 111, 114, 34, 44, 34, 50, 46, 48, 34, 125, 13, 10, 125, 13, 10,
    125, 13, 10, 125, 13, 10, 48, 48, 48, 48, 48, 48, 50, 48, 32, 48, 48, 48, 48, 48, 48, 50, 48, 32, 55, 102, 102,
    102, 102, 102, 102, 102, 32, 13, 10, 3, 0, 0, 0, 0, 0, 0, 0, 3, 0, 0, 0, 0, 0, 0, 0, 0, 0, 0, 0, 109, 0, 101, 0,
    116, 0, 97, 0, 0, 0, 0, 0]

def exOps80 : List UserOp :=
  [.put (Spec.word "version") (exDoc exVersion80) 1, .put (Spec.word "metadata") exInner 2]

theorem exInner_filled : Spec.Filled plainCodec exInner (exInnerOps.foldl after []) :=
  exFilled_eq exInnerOps exInner (by decide +kernel) (by decide +kernel) (by decide +kernel)

theorem exInner_meta : Spec.Metadata (exInnerOps.foldl after []) exInfo15 :=
  exMetadata "15" _ _ (exSays "15" 15 _ ⟨[1, 5], by decide +kernel⟩ (by decide +kernel) (by decide +kernel) (by decide +kernel)
    (by decide +kernel)) (by decide +kernel) (by decide +kernel) (by decide +kernel) (by decide +kernel)

/-- A container of format 8.0 with another one inside, and properties of version 15. -/
theorem exConfig80 : ∃ b, Spec.Config plainCodec b exInfo15 := by
  obtain ⟨b, hb⟩ := exFilled exOps80 (by decide +kernel) (by decide +kernel)
  have hl : lookup (exOps80.foldl after []) (Spec.word "metadata") = some exInner := by decide +kernel
  exact ⟨b, _, exDoc exVersion80, exVersion80, Cli.asc "80", 80, hb,
    by decide +kernel, exDoc_doc _ (by decide +kernel) (by decide +kernel) (by simp [exVersion80]), by decide +kernel,
    ⟨[8, 0], by decide +kernel⟩, Or.inr ⟨by decide, exInner, _, hl, exInner_filled, exInner_meta⟩⟩

/-- A world in which packing puts a byte in front: blob 1 is the first container packed twice, blob 2 the second, any other
has one byte. -/
def exWorld (a b : Bytes) : World where
  lower s := s.map Char.toLower
  io := ⟨fun s _ => (if s = 1 then 9 :: 9 :: a else if s = 2 then 9 :: 9 :: b else [9], true), fun b => (b.drop 1, !b.isEmpty)⟩
  cd := plainCodec

def exFile (c : String) (n : Nat) : VFile :=
  ⟨Cli.asc (c ++ "0000000-0000-0000-0000-000000000000.00000000-0000-0000-0000-000000000000"),
    (c ++ "0000000-0000-0000-0000-000000000000.00000000-0000-0000-0000-000000000000").toList, [(n, 0)]⟩

theorem exPacked (x y : Bytes) (c : String) (n : Nat) (b : Bytes) (h : ((exWorld x y).io.blob n 0).1 = 9 :: 9 :: b)
    (hp : isPacked (exWorld [] []).lower (exFile c n).name = .ok true) : Spec.Packed (exWorld x y) (exFile c n) b := by
  refine ⟨9 :: 9 :: b, 9 :: b, ⟨?_, ?_⟩, Or.inl ⟨hp, rfl⟩, rfl⟩
  · intro p hp
    obtain rfl : p = (n, 0) := by simpa [exFile] using hp
    rfl
  · simp only [exFile, List.flatMap_cons, List.flatMap_nil, List.append_nil]
    exact h.symm

/-- The files of the configuration being edited: a vendor configuration of format 8.0 and another file. -/
def exSave : List VFile := [exFile "a" 2, ⟨Cli.asc "root", "root".toList, [(3, 0)]⟩]
/-- The files of the main configuration. -/
def exMain : List VFile := [exFile "b" 1]
def exWhat (f : VFile) : Info := if f = exFile "b" 1 then exInfo else exInfo15

theorem exVendors {x y : Bytes} (hx : Spec.Config plainCodec x exInfo) (hy : Spec.Config plainCodec y exInfo15) :
    ∀ f ∈ exSave ++ exMain, f.key.length = 73 → ∃ b, Spec.IsVendor (exWorld x y) f b (exWhat f) := by
  intro f hf hk
  simp only [exSave, exMain, List.cons_append, List.nil_append, List.mem_cons, List.not_mem_nil, or_false] at hf
  rcases hf with rfl | rfl | rfl
  · exact ⟨_, exPacked x y "a" 2 y rfl (by decide +kernel), by
      rw [show exWhat (exFile "a" 2) = exInfo15 by decide +kernel]; exact hy⟩
  · exact absurd hk (by decide +kernel)
  · exact ⟨_, exPacked x y "b" 1 x rfl (by decide +kernel), by
      rw [show exWhat (exFile "b" 1) = exInfo by decide +kernel]; exact hx⟩

/-- The listing theorem applies; two configurations are listed. -/
example : ∃ w, supplierConfigs w LAST exSave exMain ⟨[], false⟩ =
    .ok (some (⟨[(exFile "a" 2, exInfo15), (exFile "b" 1, exInfo)], true⟩, true)) := by
  obtain ⟨x, hx⟩ := exConfig
  obtain ⟨y, hy⟩ := exConfig80
  refine ⟨exWorld x y, ?_⟩
  rw [(listed_partial (exWorld x y) LAST (Nat.le_refl _) exSave exMain exWhat (exVendors hx hy)).1]
  rw [show Spec.vendors exWhat (exSave ++ exMain) = [(exFile "a" 2, exInfo15), (exFile "b" 1, exInfo)] by decide +kernel]

/-- So does the saving theorem: they are saved as `Trade 1.1.cf` and `Trade 2.0.cf`. -/
example (x y : Bytes) := saved_partial (exWorld x y) (fun _ => true) (fun f => if f = exFile "b" 1 then x else y)
  [(exFile "a" 2, exInfo15), (exFile "b" 1, exInfo)] (fun _ => none)
  (by
    intro p hp
    simp only [List.mem_cons, List.not_mem_nil, or_false] at hp
    rcases hp with rfl | rfl
    · refine ⟨?_, rfl⟩
      rw [if_neg (by decide +kernel)]
      exact exPacked x y "a" 2 _ rfl (by decide +kernel)
    · refine ⟨?_, rfl⟩
      rw [if_pos rfl]
      exact exPacked x y "b" 1 _ rfl (by decide +kernel))
  (by decide +kernel)

/-- A file that cannot be read: one between the two hides both. -/
example : ∃ w, supplierConfigs w LAST (exFile "a" 2 :: exFile "c" 3 :: exMain) [] ⟨[], false⟩ =
    .ok (some (⟨[(exFile "a" 2, exInfo15)], false⟩, false)) := by
  obtain ⟨x, hx⟩ := exConfig
  obtain ⟨y, hy⟩ := exConfig80
  refine ⟨exWorld x y, ?_⟩
  have hno : unpacked (exWorld x y) (exFile "c" 3) = .ok ([], false) := by
    have : unpacked (exWorld [] []) (exFile "c" 3) = .ok ([], false) := by decide +kernel
    exact this
  rw [damaged_hides_all (exWorld x y) LAST (Nat.le_refl _) _ [] [exFile "a" 2] exMain (exFile "c" 3) exWhat rfl (by decide +kernel)
    (by
      intro f hf hk
      obtain rfl : f = exFile "a" 2 := by simpa using hf
      exact exVendors hx hy _ (by simp [exSave]) hk)
    (damaged (exWorld x y) LAST _ [] hno)]
  rw [show Spec.vendors exWhat [exFile "a" 2] = [(exFile "a" 2, exInfo15)] by decide +kernel]
  rfl

/-- Metadata that count three nodes but have one, which is not the general one. -/
example : buildMeta (exDoc (.list [exNum "1", exNum "0", exNum "3", .list [exStr "x"]])) = .ub := by
  refine short_count_ub (num := Cli.asc "3") (count := 3) (g := 1) (exDoc_doc _ (by decide +kernel) (by decide +kernel) (by simp)) (by decide +kernel) ⟨[3], by decide +kernel⟩ rfl
    (by decide) ?_
  intro j hj
  obtain rfl : j = 0 := by omega
  exact ⟨Spec.word "x", by decide +kernel, by unfold Unicode.Spec.Name; decide +kernel, by decide +kernel⟩

end Verif.Vendor
