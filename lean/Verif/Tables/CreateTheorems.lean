import Verif.Tables.Create
import Verif.Tables.Examples
import Verif.Object.TransferTheorems

/-! # Property theorems: creating a table from a folder (C89) -/

namespace Verif.Tables
open Verif Object

/-- What a run that returns has done: the folder says that it holds no description, and the list of tables and the root object are those
left by deleting the tables of the same name. -/
theorem create_inv {e : Env} {v : Db.Ver} {ro : Bool} {fuel : Nat} {named : Bytes → Outcome Bytes} {same : Bytes → Transfer.Files → Bool}
    {f : Transfer.Folder} {b b' : Base} {r : Bool} (h : createTable e v ro fuel named same f b = .ok (some (b', r))) :
    r = true ∧ Transfer.flag ((f.root.getD []).take 36) 3 = .ok false ∧
      ∃ name b1, named (f.descr.getD []) = .ok name ∧ deleteSame e v ro fuel (same name) b.tables.length 0 b = .ok (some b1) ∧
        b'.root = b1.root ∧ b'.tables = b1.tables ∧
        ∃ s1 s2 o1 o2 o3, Transfer.importIf e ro fuel (decide (v = .v8_3_8)) ((f.root.getD []).take 36) 0 f.data b1.st none = .ok (some (s1, o1)) ∧
          Transfer.importIf e ro fuel (decide (v = .v8_3_8)) ((f.root.getD []).take 36) 1 f.blob s1 none = .ok (some (s2, o2)) ∧
          Transfer.importIf e ro fuel (decide (v = .v8_3_8)) ((f.root.getD []).take 36) 2 f.index s2 none = .ok (some (b'.st, o3)) := by
  unfold createTable at h
  obtain ⟨name, hn, h⟩ := bind_ok' h
  obtain ⟨x, hx, h⟩ := bind_ok' h
  cases x with
  | none => cases h
  | some b1 =>
    obtain ⟨y, hy, h⟩ := bind_ok' h
    cases y with
    | none => cases h
    | some y =>
      obtain ⟨s1, o1⟩ := y
      obtain ⟨z, hz, h⟩ := bind_ok' h
      cases z with
      | none => cases h
      | some z =>
        obtain ⟨s2, o2⟩ := z
        obtain ⟨w, hw, h⟩ := bind_ok' h
        cases w with
        | none => cases h
        | some w =>
          obtain ⟨s3, o3⟩ := w
          simp only [createDescr] at h
          obtain ⟨fl, hf, h⟩ := bind_ok' h
          cases fl with
          | true => cases h
          | false =>
            cases h
            exact ⟨rfl, hf, name, b1, hn, hx, rfl, rfl, s1, s2, o1, o2, o3, hy, hz, hw⟩

theorem mem_shiftDown {α : Type} : ∀ {l : List α} {x : α}, x ∈ shiftDown l → x ∈ l
  | [], _, h => h
  | [_], _, h => h
  | a :: c :: r, x, h => by
    rw [shiftDown, List.mem_cons] at h
    rcases h with rfl | h
    · simp
    · exact List.mem_cons_of_mem _ (mem_shiftDown h)

theorem mem_shiftOut {α : Type} [DecidableEq α] {b : α} : ∀ {l : List α} {x : α}, x ∈ shiftOut b l → x ∈ l
  | [], _, h => h
  | a :: r, x, h => by
    rw [shiftOut] at h
    split at h
    · exact mem_shiftDown h
    · rw [List.mem_cons] at h ⊢
      rcases h with rfl | h
      · exact .inl rfl
      · exact .inr (mem_shiftOut h)

theorem deleteTable_mem {e : Env} {v : Db.Ver} {ro : Bool} {fuel : Nat} {b b' : Base} {t : Transfer.Files} {r : Bool}
    (h : deleteTable e v ro fuel b t = .ok (some (b', r))) : ∀ x ∈ b'.tables, x ∈ b.tables := by
  unfold deleteTable at h
  split at h
  · cases h
  · split at h
    · cases h; exact fun _ hx => hx
    · obtain ⟨a, _, h⟩ := bind_ok' h
      obtain ⟨y, _, h⟩ := bind_ok' h
      cases y with
      | none => cases h
      | some y =>
        obtain ⟨s, root⟩ := y
        cases h
        intro x hx
        exact mem_shiftOut (List.dropLast_subset _ hx)

/-- Deleting tables of the same name never adds one. -/
theorem deleteSame_mem {e : Env} {v : Db.Ver} {ro : Bool} {fuel : Nat} {same : Transfer.Files → Bool} :
    ∀ {n j : Nat} {b b' : Base}, deleteSame e v ro fuel same n j b = .ok (some b') → ∀ x ∈ b'.tables, x ∈ b.tables
  | 0, _, b, b', h => by cases h; exact fun _ hx => hx
  | n + 1, j, b, b', h => by
    rw [deleteSame] at h
    cases ht : b.tables[j]? with
    | none => rw [ht] at h; cases h; exact fun _ hx => hx
    | some t =>
      rw [ht] at h
      simp only at h
      split at h
      · obtain ⟨y, hy, h⟩ := bind_ok' h
        cases y with
        | none => cases h
        | some y =>
          obtain ⟨b1, r⟩ := y
          exact fun x hx => deleteTable_mem hy x (deleteSame_mem h x hx)
      · exact deleteSame_mem h

/-- **Negation of C89.** Of two tables of the name, next to each other, the second one stays: the table behind a deleted one is passed
over. -/
theorem create_passes_over (e : Env) (v : Db.Ver) (ro : Bool) (fuel : Nat) (named : Bytes → Outcome Bytes)
    (same : Bytes → Transfer.Files → Bool) (f : Transfer.Folder) (b b' : Base) (r : Bool) (t u : Transfer.Files) (ht : b.tables = [t, u])
    (hs : ∀ name, named (f.descr.getD []) = .ok name → same name t = true ∧ same name u = true)
    (h : createTable e v ro fuel named same f b = .ok (some (b', r))) : b'.tables = [u] := by
  obtain ⟨_, _, name, b1, hn, h3, _, h5, _⟩ := create_inv h
  rw [h5]
  rw [ht] at h3
  have h3 : deleteSame e v ro fuel (same name) 2 0 b = .ok (some b1) := h3
  rw [deleteSame, ht] at h3
  have h3 : (if same name t = true then (do
        match ← deleteTable e v ro fuel b t with
        | none => .ok none
        | some (b, _) => deleteSame e v ro fuel (same name) 1 1 b)
      else deleteSame e v ro fuel (same name) 1 1 b) = .ok (some b1) := h3
  rw [if_pos (hs name hn).1] at h3
  obtain ⟨y, hy, h3⟩ := bind_ok' h3
  cases y with
  | none => cases h3
  | some y =>
    obtain ⟨b2, q⟩ := y
    have ht2 : b2.tables = [u] := by
      unfold deleteTable at hy
      split at hy
      · cases hy
      · rw [if_neg (by rw [ht]; simp)] at hy
        obtain ⟨a, _, hy⟩ := bind_ok' hy
        obtain ⟨z, _, hy⟩ := bind_ok' hy
        cases z with
        | none => cases hy
        | some z =>
          cases hy
          show removeTable t b.tables = [u]
          rw [ht, removeTable, shiftOut, if_pos rfl]
          rfl
    have h3 : deleteSame e v ro fuel (same name) 1 1 b2 = .ok (some b1) := h3
    rw [deleteSame, ht2] at h3
    cases h3
    exact ht2

/-- Without a table of the name, nothing is deleted. -/
theorem deleteSame_tables {e : Env} {v : Db.Ver} {ro : Bool} {fuel : Nat} {same : Transfer.Files → Bool} :
    ∀ {n j : Nat} {b b' : Base}, deleteSame e v ro fuel same n j b = .ok (some b') → (∀ t ∈ b.tables, same t = false) → b' = b
  | 0, _, b, b', h, _ => by cases h; rfl
  | n + 1, j, b, b', h, hs => by
    rw [deleteSame] at h
    cases ht : b.tables[j]? with
    | none => rw [ht] at h; cases h; rfl
    | some t =>
      rw [ht] at h
      simp only at h
      rw [if_neg (by rw [hs t (List.mem_of_getElem? ht)]; decide)] at h
      exact deleteSame_tables h hs

/-- **Negation of C89.** No run that returns has listed the table: if none of the tables has its name, the root object and the list of
tables are as before, although success is reported. -/
theorem create_never_lists (e : Env) (v : Db.Ver) (ro : Bool) (fuel : Nat) (named : Bytes → Outcome Bytes)
    (same : Bytes → Transfer.Files → Bool) (f : Transfer.Folder) (b b' : Base) (r : Bool)
    (hnew : ∀ name, named (f.descr.getD []) = .ok name → ∀ t ∈ b.tables, same name t = false)
    (h : createTable e v ro fuel named same f b = .ok (some (b', r))) : r = true ∧ b'.root = b.root ∧ b'.tables = b.tables := by
  obtain ⟨h1, _, name, b1, h2, h3, h4, h5, _⟩ := create_inv h
  have := deleteSame_tables h3 (hnew name h2)
  subst this
  exact ⟨h1, h4, h5⟩

/-- **Negation of C89.** Whatever the folder holds, a run that returns leaves no table that was not there before. -/
theorem create_only_removes (e : Env) (v : Db.Ver) (ro : Bool) (fuel : Nat) (named : Bytes → Outcome Bytes)
    (same : Bytes → Transfer.Files → Bool) (f : Transfer.Folder) (b b' : Base) (r : Bool)
    (h : createTable e v ro fuel named same f b = .ok (some (b', r))) : ∀ t ∈ b'.tables, t ∈ b.tables := by
  obtain ⟨_, _, name, b1, _, h3, _, h5, _⟩ := create_inv h
  rw [h5]
  exact deleteSame_mem h3

/-- **Negation of C89.** A table of the same name is deleted although none takes its place: one table, and a folder that says it holds
no file. Success is reported. -/
theorem create_loses (e : Env) (hslack : 3 * 254 ≤ e.slack) (fuel : Nat) (v : Db.Ver) (named : Bytes → Outcome Bytes)
    (same : Bytes → Transfer.Files → Bool) (f : Transfer.Folder) (vers : Bytes) (hf : f.root = some ([0, 0, 0, 0] ++ vers)) (name : Bytes)
    (hn : named (f.descr.getD []) = .ok name)
    (b : Base) (sp : FreeSpec.State) (rp : List Nat)
    (lang : Bytes) (bs : List Nat) (hr : Rep e b.st sp) (h : Spec.Holds v b.st sp b.root rp lang bs) (t : Transfer.Files) (ht : b.tables = [t])
    (hs : same name t = true)
    (d : Obj) (hd : t.descr = some d) (hbl : d.block ∈ bs) (p0 p1 p2 p3 : List Nat) (h0 : Transfer.Part b.st sp t.descr p0)
    (h1 : Transfer.Part b.st sp t.data p1) (h2 : Transfer.Part b.st sp t.blob p2) (h3 : Transfer.Part b.st sp t.index p3)
    (hnd : (rp ++ (p0 ++ (p1 ++ (p2 ++ p3)))).Nodup) (s0 : Spec.Short t.descr) (s1 : Spec.Short t.data) (s2 : Spec.Short t.blob)
    (s3 : Spec.Short t.index) (hsm : sp.total + 2 * 1023 ≤ 2 ^ 32) (hbu : Budget sp ((p0 ++ (p1 ++ (p2 ++ p3))).length + 2 * rp.length))
    (hfuel : rp.length ≤ fuel) :
    ∃ b', createTable e v false fuel named same f b = .ok (some (b', true)) ∧ b'.tables = [] ∧
      Spec.Names v b'.st.pages (bs.erase d.block) := by
  obtain ⟨b', _, _, _, _, q1, _, q2, _, q3, _⟩ := delete_table_partial e hslack fuel v b sp rp lang bs hr h t (by rw [ht]; simp) d hd hbl p0 p1 p2 p3
    h0 h1 h2 h3 hnd s0 s1 s2 s3 hsm hbu hfuel
  rw [ht] at q2
  have q2 : b'.tables = [] := by rw [q2]; simp
  refine ⟨b', ?_, q2, q3⟩
  have hd : deleteSame e v false fuel (same name) b.tables.length 0 b = .ok (some b') := by
    rw [ht]
    show deleteSame e v false fuel (same name) 1 0 b = _
    rw [deleteSame, ht]
    show (if same name t = true then _ else _) = _
    rw [if_pos hs, q1]
    rfl
  unfold createTable
  rw [hn]
  simp only [Outcome.ok_bind]
  rw [hd]
  simp only [Outcome.ok_bind]
  rw [hf]
  rfl

/-- **Negation of C89.** A folder to which a table with a description was exported never makes a table again: whatever the database, the call
does not return normally (it reads a variable that was never given a value, unless it fails or runs on before). -/
theorem create_exported_undefined (pages : List Bytes) (P : Nat) (junk : Nat → UInt8) (t : Transfer.Files) (old f : Transfer.Folder)
    (hx : Transfer.exportTable pages P junk t old = .ok f) (hd : t.descr ≠ none) (e : Env) (v : Db.Ver) (ro : Bool) (fuel : Nat)
    (named : Bytes → Outcome Bytes) (same : Bytes → Transfer.Files → Bool) (b b' : Base) (r : Bool) :
    createTable e v ro fuel named same f b ≠ .ok (some (b', r)) := by
  intro h
  obtain ⟨_, h1, _⟩ := create_inv h
  have hr := (Transfer.export_writes pages P junk t old f hx).2.2.2.2.2.2.2.2
  rw [hr] at h1
  obtain ⟨o, ho⟩ := Option.ne_none_iff_exists'.1 hd
  have : ((some (Transfer.rootBytes junk t)).getD []).take 36 = Transfer.rootBytes junk t := Transfer.rootBytes_take junk t
  rw [this] at h1
  have h3 : (Transfer.rootBytes junk t)[3]? = some 1 := by
    unfold Transfer.rootBytes
    rw [ho]
    rfl
  unfold Transfer.flag at h1
  rw [h3] at h1
  cases h1

/-- **Negation of C89.** And where nothing goes wrong before, the result is undefined: for example if the folder holds just a description. -/
theorem create_ub (e : Env) (v : Db.Ver) (ro : Bool) (fuel : Nat) (named : Bytes → Outcome Bytes) (same : Bytes → Transfer.Files → Bool)
    (vers : Bytes) (f : Transfer.Folder) (hf : f.root = some ([0, 0, 0, 1] ++ vers)) (b : Base) (name : Bytes)
    (hn : named (f.descr.getD []) = .ok name) (hnew : ∀ t ∈ b.tables, same name t = false) :
    createTable e v ro fuel named same f b = .ub := by
  have hd : ∀ n j, deleteSame e v ro fuel (same name) n j b = .ok (some b) := by
    intro n
    induction n with
    | zero => intro j; rfl
    | succ n ih =>
      intro j
      rw [deleteSame]
      split
      · rfl
      · rename_i t ht
        rw [if_neg (by rw [hnew t (List.mem_of_getElem? ht)]; decide)]
        exact ih _
  unfold createTable
  rw [hn]
  simp only [Outcome.ok_bind]
  rw [hd]
  simp only [Outcome.ok_bind]
  rw [hf]
  rfl

/-- A folder with nothing in it but the flags for data and a description. -/
example : createTable ⟨4096, fun _ => true, 762⟩ .v8_2_14 false 9 (fun _ => .ok [0x54]) (fun _ _ => false)
    ⟨some ([0, 0, 0, 1] ++ List.replicate 32 0), none, none, none, some [0x7b]⟩ ⟨freshDb 3, emptyRoot, []⟩ = .ub :=
  create_ub _ _ _ _ _ _ _ _ rfl _ [0x54] rfl (by simp)

/-- The hypothesis of `create_never_lists` is met by a folder without a description: the call reports success. -/
example : createTable ⟨4096, fun _ => true, 762⟩ .v8_2_14 false 9 (fun _ => .ok [0x54]) (fun _ _ => false)
    ⟨some ([0, 0, 0, 0] ++ List.replicate 32 0), none, none, none, some [0x7b]⟩ ⟨freshDb 3, emptyRoot, []⟩ =
    .ok (some (⟨freshDb 3, emptyRoot, []⟩, true)) := rfl

/-- A database with one table meets the hypotheses of `create_loses`. -/
example (ora : Nat → Bool) : ∃ b b', Spec.Names .v8_2_14 b.st.pages [3] ∧ Spec.Names .v8_2_14 b'.st.pages [] ∧
    createTable (env ora) .v8_2_14 false 9 (fun _ => .ok [0x54]) (fun _ _ => true)
      ⟨some ([0, 0, 0, 0] ++ List.replicate 32 0), none, none, none, some [0x7b]⟩ b = .ok (some (b', true)) := by
  obtain ⟨b, sp, rp, dp, d, h1, h2, h3, h4, h5, h6, h7, h8, h9, h10, h11, _⟩ := example_base ora [3] (.inr rfl)
  obtain ⟨b', q1, _, q3⟩ := create_loses (env ora) (Nat.le_refl _) 9 .v8_2_14 (fun _ => .ok [0x54]) (fun _ _ => true)
    ⟨some ([0, 0, 0, 0] ++ List.replicate 32 0), none, none, none, some [0x7b]⟩ (List.replicate 32 0) rfl [0x54] rfl b sp rp
    (List.replicate 32 0) [3] h1 h2 ⟨none, none, none, some d⟩ h3 rfl d rfl (by rw [h4]; simp) dp [] [] [] h6 rfl rfl rfl (by simpa using h7)
    (fun x hx => by cases hx; omega) (fun x hx => by cases hx) (fun x hx => by cases hx) (fun x hx => by cases hx) (by omega)
    (budget_mono h11 (by simp; omega)) (by omega)
  refine ⟨b, b', holds_names h1 h2, ?_, q1⟩
  rw [h4] at q3
  exact q3

end Verif.Tables
