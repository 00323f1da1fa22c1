import Verif.View.Misc

/-! # Property theorems: lists and values in the graphical program (C111) -/

namespace Verif.View
open Verif

/-! ## The files of a container -/

theorem catalogFile_eq (names : List Str) (k : Nat) : catalogFile names k = names[k]? := by
  induction names generalizing k with
  | nil => cases k <;> rfl
  | cons a l ih =>
    cases k with
    | zero => rfl
    | succ k => exact ih k

theorem mapKeys_le (lower : Str → Str) (names : List Str) (keys : List Str) :
    keys.length ≤ (mapKeys lower keys names).length ∧ (mapKeys lower keys names).length ≤ keys.length + names.length := by
  induction names generalizing keys with
  | nil => simp [mapKeys]
  | cons a l ih =>
    unfold mapKeys
    have := ih (if lower a ∈ keys then keys else keys ++ [lower a])
    have h : (if lower a ∈ keys then keys else keys ++ [lower a]).length ≤ keys.length + 1 ∧
        keys.length ≤ (if lower a ∈ keys then keys else keys ++ [lower a]).length := by split <;> simp
    simp only [List.length_cons]
    omega

theorem mapKeys_full (lower : Str → Str) (names : List Str) (keys : List Str) :
    (mapKeys lower keys names).length = keys.length + names.length ↔
      (names.map lower).Nodup ∧ ∀ n ∈ names, lower n ∉ keys := by
  induction names generalizing keys with
  | nil => simp [mapKeys]
  | cons a l ih =>
    unfold mapKeys
    split
    · rename_i h
      have := (mapKeys_le lower l keys).2
      simp only [List.length_cons]
      constructor
      · intro; omega
      · rintro ⟨_, h2⟩; exact absurd h (h2 a (by simp))
    · rename_i h
      rw [show keys.length + (a :: l).length = (keys ++ [lower a]).length + l.length by simp; omega, ih]
      simp only [List.map_cons, List.nodup_cons, List.mem_map, List.mem_append, List.mem_singleton, not_or,
        List.forall_mem_cons]
      constructor
      · rintro ⟨h1, h2⟩
        exact ⟨⟨fun ⟨x, hx, e⟩ => (h2 x hx).2 e, h1⟩, h, fun n hn => (h2 n hn).1⟩
      · rintro ⟨⟨h1, h2⟩, _, h3⟩
        exact ⟨h2, fun n hn => ⟨h3 n hn, fun e => h1 ⟨n, hn, e⟩⟩⟩

theorem catalog_rows_prefix (lower : Str → Str) (names : List Str) :
    catalogShown lower names = (names.take (catalogRows lower names)).map some := by
  have hle : catalogRows lower names ≤ names.length := by
    have := (mapKeys_le lower names []).2
    simpa [catalogRows] using this
  unfold catalogShown
  apply List.ext_getElem?
  intro k
  rw [List.getElem?_map, List.getElem?_map, List.getElem?_take]
  by_cases hk : k < catalogRows lower names
  · rw [if_pos hk]
    simp only [List.getElem?_range hk, Option.map_some, catalogFile_eq]
    rw [List.getElem?_eq_getElem (by omega)]
    rfl
  · rw [if_neg hk]
    simp [hk]

/-- **C111.** The view of a container whose names differ (whatever their case) shows each file once, in order. -/
theorem catalog_shown (lower : Str → Str) (names : List Str) (h : (names.map lower).Nodup) :
    catalogShown lower names = names.map some := by
  rw [catalog_rows_prefix]
  have : catalogRows lower names = names.length := by
    have := (mapKeys_full lower names []).2 ⟨h, by simp⟩
    simpa [catalogRows] using this
  rw [this, List.take_length]

/-- **C111, finding.** If two names of a container differ in case alone, the last file of the container is not shown. -/
theorem catalog_hides (lower : Str → Str) (names : List Str) (h : ¬ (names.map lower).Nodup) :
    ∃ shown hidden, names = shown ++ hidden ∧ hidden ≠ [] ∧ catalogShown lower names = shown.map some := by
  refine ⟨names.take (catalogRows lower names), names.drop (catalogRows lower names), (List.take_append_drop _ _).symm, ?_,
    catalog_rows_prefix lower names⟩
  intro hd
  apply h
  have hlen := List.drop_eq_nil_iff.1 hd
  have hle := (mapKeys_le lower names []).2
  have : (mapKeys lower [] names).length = ([] : List Str).length + names.length := by
    simp only [List.length_nil] at hle ⊢
    unfold catalogRows at hlen
    omega
  exact ((mapKeys_full lower names []).1 this).1

example : catalogShown (fun s => s.map Char.toLower) ["a".toList, "b".toList, "A".toList] =
    [some "a".toList, some "b".toList] := by decide

/-! ## Sizes -/

theorem sizeLoop_spec (n m f : Nat) : ∀ (s k : Nat), (k = 0 → m = s ∧ f = 0) → f < 1024 →
    (0 < k → (m * 1024 + f) * 1024 ^ (k - 1) ≤ s ∧ s < (m * 1024 + f + 1) * 1024 ^ (k - 1)) →
    ∃ r m' f', sizeLoop n m f = (r, m', f') ∧ r ≤ n ∧ f' < 1024 ∧ (0 < r → m' ≤ 1000) ∧
      (n + k - r = 0 → m' = s ∧ f' = 0) ∧
      (0 < n + k - r → (m' * 1024 + f') * 1024 ^ (n + k - r - 1) ≤ s ∧ s < (m' * 1024 + f' + 1) * 1024 ^ (n + k - r - 1)) := by
  induction n generalizing m f with
  | zero =>
    intro s k h0 hf h1
    exact ⟨0, m, f, rfl, Nat.le_refl _, hf, by omega, by simpa using h0, by simpa using h1⟩
  | succ n ih =>
    intro s k h0 hf h1
    unfold sizeLoop
    split
    · have hdm : m / 1024 * 1024 + m % 1024 = m := by omega
      obtain ⟨r, m', f', e, h2, h3, h4, h5, h6⟩ := ih (m / 1024) (m % 1024) s (k + 1) (by omega) (by omega) (by
        intro _
        rw [hdm, Nat.add_sub_cancel]
        rcases Nat.eq_zero_or_pos k with hk | hk
        · subst hk
          have := h0 rfl
          simp only [Nat.pow_zero, Nat.mul_one]
          omega
        · obtain ⟨a1, a2⟩ := h1 hk
          have hp : 1024 ^ k = 1024 * 1024 ^ (k - 1) := by
            rw [← Nat.pow_succ', Nat.succ_eq_add_one, Nat.sub_add_cancel hk]
          rw [hp, ← Nat.mul_assoc, ← Nat.mul_assoc]
          exact ⟨Nat.le_trans (Nat.mul_le_mul_right _ (by omega)) a1,
            Nat.lt_of_lt_of_le a2 (Nat.mul_le_mul_right _ (by omega))⟩)
      rw [show n + 1 + k = n + (k + 1) by omega]
      exact ⟨r, m', f', e, by omega, h3, h4, h5, h6⟩
    · refine ⟨n + 1, m, f, rfl, Nat.le_refl _, hf, fun _ => by omega, ?_, ?_⟩
      · rw [show n + 1 + k - (n + 1) = k by omega]; exact h0
      · rw [show n + 1 + k - (n + 1) = k by omega]; exact h1

/-- The loop uses all its turns when the value stays above 1000. -/
theorem sizeLoop_all (n m f : Nat) (h : ∀ k, k < n → 1000 < m / 1024 ^ k) : (sizeLoop n m f).1 = 0 := by
  induction n generalizing m f with
  | zero => rfl
  | succ n ih =>
    unfold sizeLoop
    rw [if_pos (by simpa using h 0 (by omega))]
    apply ih
    intro k hk
    have := h (k + 1) (by omega)
    rwa [Nat.pow_succ', ← Nat.div_div_eq_div_mul] at this

/-- **C111.** A size below 1001 tebibytes is shown as a number of at most four digits before the point, with the unit in which
it is right to the last 1024th. -/
theorem size_shown (s : Nat) (h : s < 1001 * 2 ^ 40) :
    ∃ m f k, humanSize s = .ok (m, f, k) ∧ k ≤ 4 ∧ m ≤ 1000 ∧ f < 1024 ∧ (k = 0 → m = s ∧ f = 0) ∧
      (0 < k → (m * 1024 + f) * 1024 ^ (k - 1) ≤ s ∧ s < (m * 1024 + f + 1) * 1024 ^ (k - 1)) := by
  obtain ⟨r, m, f, e, h1, h2, h3, h4, h5⟩ := sizeLoop_spec 5 s 0 s 0 (fun _ => ⟨rfl, rfl⟩) (by omega) (by omega)
  have hr : r ≠ 0 := by
    rintro rfl
    -- then four divisions left more than 1000
    have key : ∀ (n m f : Nat), (sizeLoop (n + 1) m f).1 = 0 → 1000 < m / 1024 ^ n := by
      intro n
      induction n with
      | zero =>
        intro m f hm
        unfold sizeLoop at hm
        split at hm
        · simpa
        · simp at hm
      | succ n ih =>
        intro m f hm
        unfold sizeLoop at hm
        split at hm
        · have := ih _ _ hm
          rwa [Nat.div_div_eq_div_mul, ← Nat.pow_succ'] at this
        · simp at hm
    have := key 4 s 0 (by rw [e])
    omega
  refine ⟨m, f, 5 - r, ?_, by omega, h3 (by omega), h2, by simpa using h4, by simpa using h5⟩
  unfold humanSize
  rw [e]
  simp only
  rw [if_neg hr]

example : humanSize 1536 = .ok (1, 512, 1) ∧ humanSize 1000 = .ok (1000, 0, 0) := by decide

/-- **C111, finding.** A larger size has no unit: the code reads past the end of the list of units. -/
theorem size_undefined (s : Nat) (h : 1001 * 2 ^ 40 ≤ s) : humanSize s = .ub := by
  unfold humanSize
  have := sizeLoop_all 5 s 0 (fun k hk => by
    have : k = 0 ∨ k = 1 ∨ k = 2 ∨ k = 3 ∨ k = 4 := by omega
    rcases this with rfl | rfl | rfl | rfl | rfl <;> omega)
  dsimp only
  rw [if_pos this]

example : humanSize (2 ^ 50) = .ub := by decide

/-! ## The list of files opened before -/

theorem readLines_line (l : Str) (h : '\n' ∉ l) (rest cur : Str) :
    readLines (l ++ '\n' :: rest) cur = chomp (cur ++ l) :: readLines rest [] := by
  induction l generalizing cur with
  | nil => simp [readLines]
  | cons c l ih =>
    have hc : c ≠ '\n' := by rintro rfl; exact h (by simp)
    rw [List.cons_append, readLines, if_neg hc, ih (fun hm => h (by simp [hm]))]
    simp

/-- The text of a list with these names. -/
def listText : List Str → Str
  | [] => []
  | n :: ns => n ++ '\n' :: listText ns

theorem listText_append (a b : List Str) : listText (a ++ b) = listText a ++ listText b := by
  induction a with
  | nil => rfl
  | cons n a ih => simp [listText, ih]

theorem added_text (names : List Str) (text : Str) : names.foldl addToList text = text ++ listText names := by
  induction names generalizing text with
  | nil => simp [listText]
  | cons n ns ih => simp [ih, addToList, listText]

/-- **C111.** Whatever names are added to the list one after the other, as long as none is empty, has a line feed in it or a
carriage return at its end: the list read back has these names in this order. -/
theorem list_read_back (names : List Str) (h : ∀ n ∈ names, n ≠ [] ∧ '\n' ∉ n ∧ n.getLast? ≠ some '\r') :
    cachedList (names.foldl addToList []) = names := by
  rw [added_text, List.nil_append]
  unfold cachedList
  induction names with
  | nil => rfl
  | cons n ns ih =>
    obtain ⟨h1, h2, h3⟩ := h n (by simp)
    rw [listText, readLines_line n h2, List.nil_append, chomp, if_neg h3, List.filter_cons,
      if_pos (by cases n with | nil => exact absurd rfl h1 | cons => rfl), ih fun m hm => h m (by simp [hm])]

example : cachedList (addToList (addToList [] "a.1CD".toList) "b c.1CD".toList) = ["a.1CD".toList, "b c.1CD".toList] := by
  decide

/-- **C111, finding.** A file opened again is listed again, however often; a name with a line feed becomes two names. -/
theorem list_repeats (n : Str) (h : n ≠ [] ∧ '\n' ∉ n ∧ n.getLast? ≠ some '\r') (k : Nat) :
    cachedList ((List.replicate k n).foldl addToList []) = List.replicate k n ∧
    cachedList (addToList [] (n ++ '\n' :: n)) = [n, n] := by
  refine ⟨list_read_back _ fun m hm => by rw [(List.mem_replicate.1 hm).2]; exact h, ?_⟩
  have := list_read_back [n, n] (by intro m hm; simp only [List.mem_cons, List.not_mem_nil, or_false, or_self] at hm; subst hm; exact h)
  rw [added_text] at this
  rw [← this]
  simp [addToList, listText, cachedList]

/-! ## Packed values -/

/-- Packed `n` times. -/
def packed (deflate : Bytes → Bytes) : Nat → Bytes → Bytes
  | 0, b => b
  | n + 1, b => deflate (packed deflate n b)

theorem inflateLoop_packed (inflate : Bytes → Option Bytes) (deflate : Bytes → Bytes)
    (hz : ∀ b, inflate (deflate b) = some b) (b : Bytes) (hb : inflate b = none) :
    ∀ (n fuel counter : Nat), counter ≤ 11 → 13 ≤ fuel + counter →
      inflateLoop inflate fuel (packed deflate n b) counter =
        if n + counter ≤ 12 then (b, n + counter) else (packed deflate (n + counter - 12) b, 12) := by
  intro n
  induction n with
  | zero =>
    intro fuel counter h1 h2
    obtain ⟨fuel, rfl⟩ : ∃ k, fuel = k + 1 := ⟨fuel - 1, by omega⟩
    rw [if_pos (by omega)]
    simp [inflateLoop, packed, hb]
  | succ n ih =>
    intro fuel counter h1 h2
    obtain ⟨fuel, rfl⟩ : ∃ k, fuel = k + 1 := ⟨fuel - 1, by omega⟩
    show inflateLoop inflate (fuel + 1) (deflate (packed deflate n b)) counter = _
    rw [inflateLoop, hz]
    simp only
    by_cases hc : counter > 10
    · rw [if_pos hc]
      have : counter = 11 := by omega
      subst this
      cases n with
      | zero => simp [packed]
      | succ n =>
        rw [if_neg (by omega), show n + 1 + 1 + 11 - 12 = n + 1 by omega]
    · rw [if_neg hc, ih fuel (counter + 1) (by omega) (by omega)]
      rw [show n + (counter + 1) = n + 1 + counter by omega]

/-- **C111.** A value that was packed up to twelve times is shown unpacked, with the number of times. -/
theorem value_unpacked (inflate : Bytes → Option Bytes) (deflate : Bytes → Bytes) (hz : ∀ b, inflate (deflate b) = some b)
    (b : Bytes) (hb : inflate b = none) (n : Nat) (hn : n ≤ 12) :
    inflateStream inflate (packed deflate n b) = (b, n) := by
  unfold inflateStream
  rw [inflateLoop_packed inflate deflate hz b hb n 13 0 (by omega) (by omega), if_pos (by omega), Nat.add_zero]

/-- **C111, finding.** A value packed more often is shown packed. -/
theorem value_left_packed (inflate : Bytes → Option Bytes) (deflate : Bytes → Bytes) (hz : ∀ b, inflate (deflate b) = some b)
    (b : Bytes) (hb : inflate b = none) (n : Nat) :
    inflateStream inflate (packed deflate (n + 13) b) = (packed deflate (n + 1) b, 12) := by
  unfold inflateStream
  rw [inflateLoop_packed inflate deflate hz b hb (n + 13) 13 0 (by omega) (by omega), if_neg (by omega)]
  rfl

/-- A packing that puts a zero in front. -/
example : (∀ b : Bytes, (fun b : Bytes => match b with | 0 :: r => some r | _ => none) (0 :: b) = some b) ∧
    (fun b : Bytes => match b with | 0 :: r => some r | _ => none) [5] = none := ⟨fun _ => rfl, rfl⟩

/-- **C111.** A file is taken for a container exactly when it begins with the number of the end of a chain. -/
theorem container_by_start (b : Bytes) : isContainerFile b = true ↔ ∃ r, b = [0xff, 0xff, 0xff, 0x7f] ++ r := by
  unfold isContainerFile
  constructor
  · intro h
    split at h
    · cases h
    · exact ⟨b.drop 4, by rw [← of_decide_eq_true h, List.take_append_drop]⟩
  · rintro ⟨r, rfl⟩
    rfl

example : isContainerFile [0xff, 0xff, 0xff, 0x7f, 1] = true ∧ isContainerFile [0xff, 0xff, 0xff] = false := by decide

end Verif.View
