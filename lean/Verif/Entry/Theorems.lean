import Verif.Entry.Model
import Verif.Entry.Spec

/-! # Property theorems: container entries (C47, C48) -/

namespace Verif.Entry
open Verif Verif.Unicode Verif.Unicode.Spec Verif.Entry.Spec

/-! ## C47: names -/

theorem key_of_name (n : List Nat) (h : Spec.Name n) :
    lowerCase (utf8Text n) = .ok (utf8Text (n.map toLower)) := by
  rw [lowerCase_spec n (fun c hc => (h c hc).1), name_takeWhile n h]

theorem key_eq_iff (a b : List Nat) (ha : Spec.Name a) (hb : Spec.Name b) :
    utf8Text (a.map toLower) = utf8Text (b.map toLower) ↔ SameText a b := by
  have hm : ∀ l : List Nat, Spec.Name l → ∀ c ∈ l.map toLower, Scalar c := by
    intro l hl c hc
    obtain ⟨d, hd, rfl⟩ := List.mem_map.mp hc
    exact toLower_scalar d (hl d hd).1
  rw [← map_same toLower toLower_same]
  exact ⟨utf8Text_inj _ _ (hm a ha) (hm b hb), fun e => by rw [e]⟩

theorem find_erase (fs : List (Bytes × Nat)) (k k' : Bytes) :
    find (erase fs k) k' = if k' = k then none else find fs k' := by
  induction fs with
  | nil => simp [find, erase]
  | cons p fs ih =>
    unfold find erase at ih ⊢
    by_cases hp : p.1 = k
    · rw [List.filter_cons_of_neg (by simp [hp]), ih]
      by_cases hk : k' = k
      · simp [hk]
      · rw [if_neg hk, if_neg hk, List.find?_cons_of_neg]
        simp [hp, Ne.symm hk]
    · rw [List.filter_cons_of_pos (by simp [hp])]
      by_cases hk : p.1 = k'
      · have : k' ≠ k := hk ▸ hp
        rw [if_neg this, List.find?_cons_of_pos (by simp [hk]), List.find?_cons_of_pos (by simp [hk])]
      · rw [List.find?_cons_of_neg (by simp [hk]), ih, List.find?_cons_of_neg (by simp [hk])]

theorem find_assign (fs : List (Bytes × Nat)) (k k' : Bytes) (id : Nat) :
    find (assign fs k id) k' = if k' = k then some id else find fs k' := by
  unfold assign
  by_cases h : k' = k
  · simp [find, h]
  · have := find_erase fs k k'
    rw [if_neg h] at this ⊢
    rw [← this]
    simp [find, Ne.symm h]

/-- The name table holds exactly the entries `s`: names differ by more than the case of
letters, identities differ, the map finds each entry under its folded name. -/
structure Rep (d : Dir) (s : Names) : Prop where
  chain : d.chain = s.map fun p => ⟨p.2, utf8Text p.1⟩
  names : ∀ p ∈ s, Spec.Name p.1
  distinct : s.Pairwise fun p q => ¬ SameText p.1 q.1
  ids : (s.map Prod.snd).Nodup
  fresh : ∀ p ∈ s, p.2 < d.fresh
  files : ∀ k i, find d.files k = some i ↔ ∃ m, (m, i) ∈ s ∧ k = utf8Text (m.map toLower)

theorem rep_empty : Rep ⟨[], [], 0⟩ [] :=
  ⟨rfl, by simp, List.Pairwise.nil, List.nodup_nil, by simp, by simp [find]⟩

/-- **C47a.** Looking a name up, in any letter case, gives the entry of that name if there
is one and nothing otherwise. -/
theorem get_file_finds (d : Dir) (s : Names) (h : Rep d s) (n : List Nat) (hn : Spec.Name n) :
    ∃ r, getFile d (utf8Text n) = .ok r ∧ Finds s n r := by
  refine ⟨find d.files (utf8Text (n.map toLower)), ?_, ?_⟩
  · unfold getFile; rw [key_of_name n hn]; rfl
  · cases hf : find d.files (utf8Text (n.map toLower)) with
    | some i =>
      obtain ⟨m, hm, e⟩ := (h.files _ i).1 hf
      exact ⟨m, hm, (key_eq_iff m n (h.names _ hm) hn).1 e.symm⟩
    | none =>
      intro p hp hs
      have := (h.files (utf8Text (n.map toLower)) p.2).2 ⟨p.1, hp, ((key_eq_iff _ n (h.names p hp) hn).2 hs).symm⟩
      rw [hf] at this; cases this

/-- **C47b.** `Finds` determines the answer, so the answer to a lookup is the same whenever
the name agrees up to the case of letters. -/
theorem finds_unique (d : Dir) (s : Names) (h : Rep d s) (n n' : List Nat) (hn : Spec.Name n) (hn' : Spec.Name n')
    (hs : SameText n n') (r r' : Option Nat) (h1 : Finds s n r) (h2 : Finds s n' r') : r = r' := by
  have key : ∀ n r, Spec.Name n → Finds s n r → r = find d.files (utf8Text (n.map toLower)) := by
    intro n r hn hr
    cases r with
    | some i =>
      obtain ⟨m, hm, e⟩ := hr
      exact ((h.files _ i).2 ⟨m, hm, ((key_eq_iff m n (h.names _ hm) hn).2 e).symm⟩).symm
    | none =>
      cases hf : find d.files (utf8Text (n.map toLower)) with
      | none => rfl
      | some i =>
        obtain ⟨m, hm, e⟩ := (h.files _ i).1 hf
        exact absurd ((key_eq_iff m n (h.names _ hm) hn).1 e.symm) (hr _ hm)
  rw [key n r hn h1, key n' r' hn' h2, (key_eq_iff n n' hn hn').2 hs]

/-- **C47c.** Creating an entry: if the name (in any letter case) exists, the existing
entry is returned and nothing changes; otherwise one new entry, distinct from all
others, is added at the end. -/
theorem create_entry (d : Dir) (s : Names) (h : Rep d s) (n : List Nat) (hn : Spec.Name n) :
    ∃ i d' s', createFile d (utf8Text n) = .ok (i, d') ∧ Rep d' s' ∧ Effect s (.create n) s' ∧ Finds s' n (some i) := by
  obtain ⟨r, hr, hf⟩ := get_file_finds d s h n hn
  cases r with
  | some i =>
    refine ⟨i, d, s, ?_, h, .existing hf, hf⟩
    unfold createFile; rw [hr]; rfl
  | none =>
    have hself : SameText n n := (map_same toLower toLower_same n n).1 rfl
    refine ⟨d.fresh, { chain := d.chain ++ [⟨d.fresh, utf8Text n⟩], files := assign d.files (utf8Text (n.map toLower)) d.fresh, fresh := d.fresh + 1 },
      s ++ [(n, d.fresh)], ?_, ?_, .new _ hf (fun p hp => Nat.ne_of_lt (h.fresh p hp)), ⟨n, by simp, hself⟩⟩
    · unfold createFile newFile; rw [hr, key_of_name n hn]; rfl
    · refine ⟨by simp [h.chain], ?_, ?_, ?_, ?_, ?_⟩
      · intro p hp
        rcases List.mem_append.mp hp with hp | hp
        · exact h.names p hp
        · simp at hp; subst hp; exact hn
      · rw [List.pairwise_append]
        exact ⟨h.distinct, by simp, fun p hp q hq => by simp at hq; subst hq; exact hf p hp⟩
      · rw [List.map_append, List.nodup_append]
        refine ⟨h.ids, by simp, ?_⟩
        intro a ha b hb
        simp at hb; subst hb
        obtain ⟨p, hp, rfl⟩ := List.mem_map.mp ha
        exact Nat.ne_of_lt (h.fresh p hp)
      · intro p hp
        rcases List.mem_append.mp hp with hp | hp
        · exact Nat.lt_succ_of_lt (h.fresh p hp)
        · simp at hp; subst hp; exact Nat.lt_succ_self _
      · intro k i
        simp only
        rw [find_assign]
        by_cases hk : k = utf8Text (n.map toLower)
        · rw [if_pos hk]
          constructor
          · rintro e; cases e; exact ⟨n, by simp, hk⟩
          · rintro ⟨m, hm, e⟩
            rcases List.mem_append.mp hm with hm | hm
            · have : SameText m n := (key_eq_iff m n (h.names _ hm) hn).1 (e.symm.trans hk)
              exact absurd this (hf _ hm)
            · simp at hm; rw [hm.2]
        · rw [if_neg hk, h.files]
          constructor
          · rintro ⟨m, hm, e⟩; exact ⟨m, by simp [hm], e⟩
          · rintro ⟨m, hm, e⟩
            rcases List.mem_append.mp hm with hm | hm
            · exact ⟨m, hm, e⟩
            · simp at hm; rw [hm.1] at e; exact absurd e hk

/-- Two entries with the same identity are the same entry. -/
theorem same_id {s : Names} (h : (s.map Prod.snd).Nodup) {p q : List Nat × Nat} (hp : p ∈ s) (hq : q ∈ s)
    (e : p.2 = q.2) : p = q := by
  induction s with
  | nil => simp at hp
  | cons x s ih =>
    rw [List.map_cons, List.nodup_cons] at h
    obtain ⟨h1, h2⟩ := h
    rcases List.mem_cons.mp hp with hp | hp <;> rcases List.mem_cons.mp hq with hq | hq
    · rw [hp, hq]
    · exact absurd (List.mem_map.mpr ⟨q, hq, by rw [← e, hp]⟩) h1
    · exact absurd (List.mem_map.mpr ⟨p, hp, by rw [e, hq]⟩) h1
    · exact ih h2 hp hq

/-- **C47d.** Deleting an entry removes that entry and only that one: its name is absent
afterwards and every other entry is found as before. -/
theorem delete_entry (d : Dir) (s : Names) (h : Rep d s) (m : List Nat) (i : Nat) (hm : (m, i) ∈ s) :
    ∃ d', deleteEntry d i = .ok d' ∧ Rep d' (s.filter (fun p => p.2 != i)) ∧
      ∀ n, Spec.Name n → SameText m n → getFile d' (utf8Text n) = .ok none := by
  have hfind : d.chain.find? (fun e => e.id == i) = some ⟨i, utf8Text m⟩ := by
    rw [h.chain, List.find?_map]
    cases hf : s.find? ((fun e : Ent => e.id == i) ∘ fun p => ⟨p.2, utf8Text p.1⟩) with
    | none => exact absurd (List.find?_eq_none.mp hf _ hm) (by simp)
    | some q =>
      have h1 := List.find?_some hf
      have h2 := List.mem_of_find?_eq_some hf
      simp at h1
      have := same_id h.ids h2 hm h1
      subst this; rfl
  have hrep : Rep { d with chain := d.chain.filter (fun x => x.id != i), files := erase d.files (utf8Text (m.map toLower)) }
      (s.filter (fun p => p.2 != i)) := by
    refine ⟨?_, fun p hp => h.names p ((List.mem_filter.mp hp).1), h.distinct.filter _, h.ids.sublist ?_,
      fun p hp => h.fresh p ((List.mem_filter.mp hp).1), ?_⟩
    · simp only [h.chain, List.filter_map]; rfl
    · exact List.filter_sublist.map _
    · intro k j
      simp only
      rw [find_erase]
      by_cases hk : k = utf8Text (m.map toLower)
      · rw [if_pos hk]
        constructor
        · intro e; cases e
        · rintro ⟨m', hm', e⟩
          rw [List.mem_filter] at hm'
          have h1 := (h.files k i).2 ⟨m, hm, hk⟩
          have h2 := (h.files k j).2 ⟨m', hm'.1, e⟩
          rw [h1] at h2
          cases h2
          simp at hm'
      · rw [if_neg hk, h.files]
        constructor
        · rintro ⟨m', hm', e⟩
          refine ⟨m', List.mem_filter.mpr ⟨hm', ?_⟩, e⟩
          simp only [bne_iff_ne, ne_eq]
          intro hj
          have := same_id h.ids hm' hm hj
          cases this
          exact hk e
        · rintro ⟨m', hm', e⟩
          exact ⟨m', (List.mem_filter.mp hm').1, e⟩
  refine ⟨_, ?_, hrep, ?_⟩
  · unfold deleteEntry; rw [hfind]; simp only [key_of_name m (h.names _ hm)]; rfl
  · intro n hn hs
    unfold getFile
    rw [key_of_name n hn]
    simp only [Outcome.ok_bind, find_erase]
    rw [if_pos ((key_eq_iff m n (h.names _ hm) hn).2 hs).symm]

/-- One user action on the model: creation by name, or lookup followed by deletion of the
entry found (`get_file` then `V8File::delete_file`). -/
def runOp (d : Dir) : Op → Outcome Dir
  | .create n => do let (_, d') ← createFile d (utf8Text n); .ok d'
  | .remove n => do
    match ← getFile d (utf8Text n) with
    | some i => deleteEntry d i
    | none => .ok d

def run (d : Dir) : List Op → Outcome Dir
  | [] => .ok d
  | op :: ops => do let d' ← runOp d op; run d' ops

/-- The name an action is about. -/
def opName : Op → List Nat
  | .create n => n
  | .remove n => n

/-- The expected effect of a sequence. -/
inductive Effects : Names → List Op → Names → Prop
  | nil (s) : Effects s [] s
  | cons {s s' s'' op ops} : Effect s op s' → Effects s' ops s'' → Effects s (op :: ops) s''

theorem step_entry (d : Dir) (s : Names) (h : Rep d s) (op : Op) (hn : Spec.Name (opName op)) :
    ∃ d' s', runOp d op = .ok d' ∧ Effect s op s' ∧ Rep d' s' := by
  cases op with
  | create n =>
    obtain ⟨i, d', s', h1, h2, h3, _⟩ := create_entry d s h n hn
    exact ⟨d', s', by simp only [runOp, h1, Outcome.ok_bind], h3, h2⟩
  | remove n =>
    obtain ⟨r, hr, hf⟩ := get_file_finds d s h n hn
    cases r with
    | some i =>
      obtain ⟨m, hm, hs⟩ := hf
      obtain ⟨d', h1, h2, _⟩ := delete_entry d s h m i hm
      exact ⟨d', _, by simp only [runOp, hr, Outcome.ok_bind, h1], .removed ⟨m, hm, hs⟩, h2⟩
    | none => exact ⟨d, s, by simp only [runOp, hr, Outcome.ok_bind], .absent hf, h⟩

/-- **C47.** For every sequence of creations and deletions starting from an empty
container, the container holds exactly the entries the sequence should leave, and every
name, in any letter case, finds its entry. What is missing: deletion goes through
`V8File::delete_file`; deletion by name through the catalog is undefined
(`catalog_delete_undefined`). -/
theorem entries_history_partial (ops : List Op) (hn : ∀ op ∈ ops, Spec.Name (opName op)) :
    ∃ d s, run ⟨[], [], 0⟩ ops = .ok d ∧ Effects [] ops s ∧
      (d.chain = s.map fun p => ⟨p.2, utf8Text p.1⟩) ∧
      ∀ n, Spec.Name n → ∃ r, getFile d (utf8Text n) = .ok r ∧ Finds s n r := by
  have gen : ∀ (ops : List Op) (d : Dir) (s : Names), Rep d s → (∀ op ∈ ops, Spec.Name (opName op)) →
      ∃ d' s', run d ops = .ok d' ∧ Effects s ops s' ∧ Rep d' s' := by
    intro ops
    induction ops with
    | nil => intro d s h _; exact ⟨d, s, rfl, .nil s, h⟩
    | cons op ops ih =>
      intro d s h hn
      obtain ⟨d1, s1, h1, h2, h3⟩ := step_entry d s h op (hn op (by simp))
      obtain ⟨d2, s2, h4, h5, h6⟩ := ih d1 s1 h3 (fun o ho => hn o (by simp [ho]))
      exact ⟨d2, s2, by simp only [run, h1, Outcome.ok_bind, h4], .cons h2 h5, h6⟩
  obtain ⟨d, s, h1, h2, h3⟩ := gen ops _ _ rep_empty hn
  exact ⟨d, s, h1, h2, h3.chain, fun n hn => get_file_finds d s h3 n hn⟩

/-- Three creations, two of which agree up to case, and a deletion. -/
example : run ⟨[], [], 0⟩ [.create [0x41, 0x416], .create [0x42], .create [0x61, 0x436], .remove [0x62]] =
    .ok ⟨[⟨0, utf8Text [0x41, 0x416]⟩], [(utf8Text [0x61, 0x436], 0)], 2⟩ := by decide +kernel
example : Spec.Name [0x41, 0x416] := by intro c hc; simp at hc; rcases hc with rfl | rfl <;> decide

/-- **C47, the part that fails.** `V8Catalog::delete_file`: nothing happens if no entry has
that name, and otherwise the loop continues through the deleted object. -/
theorem catalog_delete_undefined (d : Dir) (s : Names) (h : Rep d s) (n : List Nat) (hn : Spec.Name n) :
    (Finds s n none → deleteFile d (utf8Text n) = .ok d) ∧
    (∀ i, Finds s n (some i) → deleteFile d (utf8Text n) = .ub) := by
  have key : ∀ (t : Names), (∀ p ∈ t, Spec.Name p.1) →
      deleteLoop (utf8Text n) (t.map fun p => ⟨p.2, utf8Text p.1⟩) d = .ok d ∧ (∀ p ∈ t, ¬ SameText p.1 n) ∨
      deleteLoop (utf8Text n) (t.map fun p => ⟨p.2, utf8Text p.1⟩) d = .ub ∧ (∃ p ∈ t, SameText p.1 n) := by
    intro t
    induction t with
    | nil => intro _; exact Or.inl ⟨rfl, by simp⟩
    | cons p t ih =>
      intro hp
      have hpn := hp p (by simp)
      by_cases hs : SameText p.1 n
      · right
        refine ⟨?_, p, by simp, hs⟩
        simp only [List.map_cons, deleteLoop, (equalIC_iff p.1 n hpn hn).1.2 hs, Outcome.ok_bind]
        rfl
      · simp only [List.map_cons, deleteLoop, (equalIC_iff p.1 n hpn hn).2.2 hs, Outcome.ok_bind]
        rcases ih (fun q hq => hp q (by simp [hq])) with ⟨h1, h2⟩ | ⟨h1, q, hq, h2⟩
        · left
          refine ⟨h1, fun q hq => ?_⟩
          rcases List.mem_cons.mp hq with rfl | hq
          · exact hs
          · exact h2 q hq
        · right; exact ⟨h1, q, by simp [hq], h2⟩
  unfold deleteFile
  rw [h.chain]
  constructor
  · intro hf
    rcases key s h.names with ⟨h1, _⟩ | ⟨_, p, hp, h2⟩
    · exact h1
    · exact absurd h2 (hf p hp)
  · rintro i ⟨m, hm, hs⟩
    rcases key s h.names with ⟨_, h2⟩ | ⟨h1, _⟩
    · exact absurd hs (h2 _ hm)
    · exact h1

/-! ## C48: the entry header -/

theorem le64_length (n : Nat) : (le64 n).length = 8 := by simp [le64]

theorem rd64_le64 (n : Nat) (h : n < 2 ^ 64) (rest : Bytes) : rd64 (le64 n ++ rest) = .ok n := by
  simp only [rd64, le64, List.cons_append, List.nil_append, UInt8.toNat_ofNat', Outcome.ok.injEq]
  omega

/-- **C48.** Writing an entry's header and reading it back as a container does when it is
opened: the creation time is the same, and the name is found under the same name in any
letter case. What is missing: the modification time is lost
(`modification_time_lost`) and the name itself has gained two NUL characters. -/
theorem entry_header_partial (created modified : Nat) (cps : List Nat) (hn : Spec.Name cps)
    (hc : created < 2 ^ 64) :
    ∃ b t name, headerBytes created modified (utf8Text cps) = .ok b ∧
      b = le64 created ++ le64 modified ++ [0, 0, 0, 0] ++ utf16Text cps ++ [0, 0, 0, 0] ∧
      parseHeader b = .ok (created, t, name) ∧ equalIC name (utf8Text cps) = .ok true ∧
      name.takeWhile (· ≠ 0) = utf8Text cps := by
  have hsc : ∀ c ∈ cps, Scalar c := fun c hc => (hn c hc).1
  have hsc2 : ∀ c ∈ cps ++ [0, 0], Scalar c := by
    intro c hc
    rcases List.mem_append.mp hc with hc | hc
    · exact hsc c hc
    · simp at hc; subst hc; decide
  have hz : [(0 : UInt8), 0, 0, 0] = utf16Text [0, 0] := by decide
  have hcat : utf16Text cps ++ [0, 0, 0, 0] = utf16Text (cps ++ [0, 0]) := by
    rw [hz]; unfold utf16Text; rw [List.flatMap_append]
  refine ⟨le64 created ++ le64 modified ++ [0, 0, 0, 0] ++ utf16Text cps ++ [0, 0, 0, 0], (created + 8) % 2 ^ 64,
    utf8Text (cps ++ [0, 0]), ?_, rfl, ?_, ?_, ?_⟩
  · unfold headerBytes
    rw [utf8_to_utf16 cps hsc]; rfl
  · unfold parseHeader
    have h := utf16_to_utf8 (cps ++ [0, 0]) hsc2 (le64 created ++ le64 modified ++ [0, 0, 0, 0])
    rw [← hcat] at h
    have h20 : (le64 created ++ le64 modified ++ [0, 0, 0, 0]).length = 20 := by simp [le64_length]
    rw [h20] at h
    have hb : le64 created ++ le64 modified ++ [0, 0, 0, 0] ++ utf16Text cps ++ [0, 0, 0, 0] =
        le64 created ++ le64 modified ++ [0, 0, 0, 0] ++ (utf16Text cps ++ [0, 0, 0, 0]) := by
      rw [List.append_assoc]
    rw [hb, h]
    simp only [Outcome.ok_bind]
    rw [List.append_assoc, List.append_assoc, rd64_le64 created hc]
    rfl
  · unfold equalIC
    rw [key_of_name cps hn, lowerCase_spec _ hsc2]
    have : (cps ++ [0, 0]).takeWhile (· ≠ 0) = cps := by
      have := takeWhile_append_all (fun x => decide (x ≠ 0)) cps [0, 0] (by
        intro c hc; simpa using (hn c hc).2)
      simpa using this
    rw [this]
    simp
  · have h1 : utf8Text (cps ++ [0, 0]) = utf8Text cps ++ 0 :: [0] := by
      unfold utf8Text; rw [List.flatMap_append]; rfl
    rw [h1, takeWhile_text cps hsc, name_takeWhile cps hn]

/-- **C48, the part that fails.** Whatever modification time was stored, the one read back
is the creation time plus eight ticks. -/
theorem modification_time_lost (created modified : Nat) (cps : List Nat) (hn : Spec.Name cps)
    (hc : created < 2 ^ 64) : ∃ b name, headerBytes created modified (utf8Text cps) = .ok b ∧
      parseHeader b = .ok (created, (created + 8) % 2 ^ 64, name) := by
  obtain ⟨b, t, name, h1, _, h2, _⟩ := entry_header_partial created modified cps hn hc
  refine ⟨b, name, h1, ?_⟩
  rw [h2]
  unfold parseHeader at h2
  cases h3 : toUtf8 b 20 with
  | ok v =>
    cases h4 : rd64 b with
    | ok u =>
      rw [h3, h4] at h2
      simp only [Outcome.ok_bind, Outcome.ok.injEq, Prod.mk.injEq] at h2
      rw [← h2.2.1, h2.1]
    | throw => rw [h3, h4] at h2; cases h2
    | ub => rw [h3, h4] at h2; cases h2
  | throw => rw [h3] at h2; cases h2
  | ub => rw [h3] at h2; cases h2

example : (headerBytes 5 77 (utf8Text [0x416]) >>= parseHeader) = .ok (5, 13, utf8Text [0x416, 0, 0]) := by decide

end Verif.Entry
