import Verif.App.Spec

/-! # Lemmas about running the program -/

namespace Verif.App
open Verif Verif.Cli

variable {σ α β : Type}

theorem adds_nil (s : Sys σ) : Spec.Adds s s [] := by
  unfold Spec.Adds
  split <;> simp

theorem adds_trans {s s1 s2 : Sys σ} {a b : List Msg} (hm : s1.mess = s.mess) (h1 : Spec.Adds s s1 a) (h2 : Spec.Adds s1 s2 b) :
    Spec.Adds s s2 (a ++ b) := by
  unfold Spec.Adds at *
  rw [hm] at h2
  split at h1 <;> rename_i h
  · rw [if_pos h] at h2 ⊢
    rw [h2.1, h2.2, h1.1, h1.2]
    simp
  · rw [if_neg h] at h2 ⊢
    rw [h2.1, h2.2, h1.1, h1.2]
    simp

theorem add_adds (s : Sys σ) (m : Msg) : Spec.Adds s (s.add m) [m] := by
  unfold Spec.Adds Sys.add
  cases h : s.mess.logfile with
  | nil => simp
  | cons a l => simp

theorem add_fs (s : Sys σ) (m : Msg) : (s.add m).fs = s.fs := by unfold Sys.add; split <;> rfl
theorem add_db (s : Sys σ) (m : Msg) : (s.add m).db = s.db := by unfold Sys.add; split <;> rfl
theorem add_mess (s : Sys σ) (m : Msg) : (s.add m).mess = s.mess := by unfold Sys.add; split <;> rfl

/-! ## Steps -/

theorem bind_some {m : Step σ α} {f : α → Step σ β} {s s' : Sys σ} {a : α} (h : m s = .ok (s', some a)) :
    (m >>= f) s = f a s' := by
  show Step.next m f s = _
  rw [Step.next, h]

theorem bind_none {m : Step σ α} {f : α → Step σ β} {s s' : Sys σ} (h : m s = .ok (s', none)) :
    (m >>= f) s = .ok (s', none) := by
  show Step.next m f s = _
  rw [Step.next, h]

theorem bind_inv {m : Step σ α} {f : α → Step σ β} {s s' : Sys σ} {r : Option β} (h : (m >>= f) s = .ok (s', r)) :
    (∃ s1 a, m s = .ok (s1, some a) ∧ f a s1 = .ok (s', r)) ∨ (m s = .ok (s', none) ∧ r = none) := by
  change Step.next m f s = _ at h
  rw [Step.next] at h
  split at h
  · rename_i s1 a e
    exact Or.inl ⟨s1, a, e, h⟩
  · rename_i s1 e
    cases h
    exact Or.inr ⟨e, rfl⟩
  · cases h
  · cases h

theorem pure_inv {a : α} {s s' : Sys σ} {r : Option α} (h : (pure a : Step σ α) s = .ok (s', r)) : s' = s ∧ r = some a := by
  cases h
  exact ⟨rfl, rfl⟩

/-! ## What steps touch -/

theorem touches_mono {m : Step σ α} {P Q : Path → Prop} (h : Spec.Touches m P) (hPQ : ∀ q, P q → Q q) : Spec.Touches m Q := by
  intro s s' r e
  obtain ⟨h1, h2⟩ := h s s' r e
  exact ⟨fun q hq => h1 q fun hp => hq (hPQ q hp), h2⟩

theorem touches_bind {m : Step σ α} {f : α → Step σ β} {P : Path → Prop} (h1 : Spec.Touches m P)
    (h2 : ∀ s s' a, m s = .ok (s', some a) → Spec.Touches (f a) P) : Spec.Touches (m >>= f) P := by
  intro s s' r e
  rcases bind_inv e with ⟨s1, a, e1, e2⟩ | ⟨e1, _⟩
  · obtain ⟨a1, a2, ms, a3⟩ := h1 _ _ _ e1
    obtain ⟨b1, b2, ms', b3⟩ := h2 _ _ _ e1 _ _ _ e2
    exact ⟨fun q hq => (b1 q hq).trans (a1 q hq), b2.trans a2, _, adds_trans a2 a3 b3⟩
  · exact h1 _ _ _ e1

theorem touches_pure (a : α) (P : Path → Prop) : Spec.Touches (pure a : Step σ α) P := by
  intro s s' r e
  obtain ⟨rfl, _⟩ := pure_inv e
  exact ⟨fun _ _ => rfl, rfl, [], adds_nil _⟩

theorem touches_lift (x : Outcome α) (P : Path → Prop) : Spec.Touches (lift x : Step σ α) P := by
  intro s s' r e
  unfold lift at e
  cases x with
  | ok a => cases e; exact ⟨fun _ _ => rfl, rfl, [], adds_nil _⟩
  | throw => cases e; exact ⟨fun _ _ => rfl, rfl, [], adds_nil _⟩
  | ub => cases e

theorem touches_say (m : Msg) (P : Path → Prop) : Spec.Touches (say m : Step σ Unit) P := by
  intro s s' r e
  cases e
  exact ⟨fun q _ => by rw [add_fs], add_mess _ _, [m], add_adds _ _⟩

theorem touches_dir (e : Env) (p : Path) (c : Bool) : Spec.Touches (directoryExists e p c : Step σ Bool) (fun q => c = true ∧ q = p) := by
  intro s s' r h
  unfold directoryExists at h
  split at h
  · split at h
    · rename_i hc
      split at h
      · cases h
        refine ⟨fun q hq => ?_, rfl, [], ?_⟩
        · show (if q = p then _ else _) = _
          rw [if_neg fun hqp => hq ⟨hc, hqp⟩]
        · exact adds_nil _
      · cases h
        exact ⟨fun _ _ => rfl, rfl, [], adds_nil _⟩
    · cases h
      exact ⟨fun q _ => by rw [add_fs], add_mess _ _, _, add_adds _ _⟩
  · cases h
    exact ⟨fun q _ => by rw [add_fs], add_mess _ _, _, add_adds _ _⟩
  · cases h
    exact ⟨fun _ _ => rfl, rfl, [], adds_nil _⟩

theorem touches_inDir (e : Env) (p : Path) (c : Bool) {rest : Step σ Unit} {P : Path → Prop} (h : Spec.Touches rest P) :
    Spec.Touches (inDir e p c rest) (fun q => P q ∨ (c = true ∧ q = p)) := by
  unfold inDir
  refine touches_bind (touches_mono (touches_dir e p c) fun q hq => Or.inr hq) ?_
  intro _ _ b _
  cases b with
  | true => exact touches_mono h fun q hq => Or.inl hq
  | false => exact touches_pure () _

/-! ## Paths -/

theorem mem_takeWhile {p : UInt8 → Bool} {x : UInt8} : ∀ {l : Bytes}, x ∈ l.takeWhile p → p x = true
  | [], h => by cases h
  | a :: l, h => by
    rw [List.takeWhile_cons] at h
    split at h
    · rcases List.mem_cons.1 h with rfl | h
      · assumption
      · exact mem_takeWhile h
    · cases h

theorem takeWhile_append_stop {p : UInt8 → Bool} (a b : Bytes) (c : UInt8) (h : ∀ x ∈ a, p x = true) (hc : p c = false) :
    (a ++ c :: b).takeWhile p = a := by
  rw [List.takeWhile_append_of_pos h, List.takeWhile_cons_of_neg (by simp [hc]), List.append_nil]

theorem lower_cf (a b c : UInt8) : isCf [c, a, b] = true ↔ c = 46 ∧ (a = 99 ∨ a = 67) ∧ (b = 102 ∨ b = 70) := by
  unfold isCf
  rw [decide_eq_true_iff]
  have h : asc ".cf" = [46, 99, 102] := by decide +kernel
  rw [h]
  simp only [List.map_cons, List.map_nil, List.cons.injEq, and_true]
  have key : ∀ x y : UInt8, y.toNat < 65 ∨ 97 ≤ y.toNat → ((if 65 ≤ x.toNat ∧ x.toNat ≤ 90 then x + 32 else x) = y ↔
      x = y ∨ (65 ≤ x.toNat ∧ x.toNat ≤ 90 ∧ x.toNat + 32 = y.toNat)) := by
    intro x y hy
    have hx := x.toNat_lt
    by_cases h : 65 ≤ x.toNat ∧ x.toNat ≤ 90
    · rw [if_pos h]
      constructor
      · intro e
        right
        refine ⟨h.1, h.2, ?_⟩
        rw [← e, UInt8.toNat_add]
        show _ = (x.toNat + 32) % 256
        omega
      · rintro (rfl | ⟨_, _, e⟩)
        · omega
        · apply UInt8.toNat_inj.1
          rw [UInt8.toNat_add]
          show (x.toNat + 32) % 256 = _
          omega
    · rw [if_neg h]
      constructor
      · exact Or.inl
      · rintro (h' | h')
        · exact h'
        · omega
  have hn : ∀ (x : UInt8) (k : Nat), k < 256 → (x.toNat = k ↔ x = UInt8.ofNat k) := by
    intro x k hk
    rw [← UInt8.toNat_inj, UInt8.toNat_ofNat', Nat.mod_eq_of_lt hk]
  rw [key c 46 (by decide), key a 99 (by decide), key b 102 (by decide)]
  have h46 : (46 : UInt8).toNat = 46 := rfl
  have h99 : (99 : UInt8).toNat = 99 := rfl
  have h102 : (102 : UInt8).toNat = 102 := rfl
  rw [h46, h99, h102]
  refine and_congr ?_ (and_congr ?_ ?_)
  · constructor
    · rintro (h | h)
      · exact h
      · omega
    · exact Or.inl
  · refine or_congr Iff.rfl ?_
    rw [show (a = 67) ↔ a.toNat = 67 from ((hn a 67 (by decide)).trans Iff.rfl).symm]
    omega
  · refine or_congr Iff.rfl ?_
    rw [show (b = 70) ↔ b.toNat = 70 from ((hn b 70 (by decide)).trans Iff.rfl).symm]
    omega

theorem endsCf_iff (p : Path) : isCf (extension p) = true ↔ Spec.EndsCf p := by
  constructor
  · intro h
    -- the last component ends the path
    obtain ⟨pre, name, hp, hn⟩ : ∃ pre name, p = pre ++ name ∧ (p.reverse.takeWhile (· ≠ 47)).reverse = name := by
      refine ⟨(p.reverse.dropWhile (· ≠ 47)).reverse, _, ?_, rfl⟩
      rw [← List.reverse_append, List.takeWhile_append_dropWhile, List.reverse_reverse]
    unfold extension at h
    simp only [hn] at h
    split at h
    · exact absurd h (by decide)
    · split at h
      · rename_i hc
        have hc' : (46 : UInt8) ∈ name.reverse := by simpa using hc
        -- the part behind the last point
        obtain ⟨d, hd⟩ : ∃ d, name.reverse = name.reverse.takeWhile (· ≠ 46) ++ 46 :: d := by
          have h1 := List.takeWhile_append_dropWhile (p := fun x : UInt8 => decide (x ≠ 46)) (l := name.reverse)
          cases hdw : name.reverse.dropWhile (· ≠ 46) with
          | nil =>
            rw [hdw, List.append_nil] at h1
            rw [← h1] at hc'
            exact absurd rfl (of_decide_eq_true (mem_takeWhile hc'))
          | cons x d =>
            have : x = 46 := by
              have h2 := List.head?_dropWhile_not (fun x : UInt8 => decide (x ≠ 46)) name.reverse
              rw [hdw] at h2
              simpa using h2
            exact ⟨d, by rw [this] at hdw; rw [← hdw, h1]⟩
        have hl : ∃ x y, (name.reverse.takeWhile (· ≠ 46)).reverse = [x, y] := by
          have h3 := of_decide_eq_true h
          have h4 := congrArg List.length h3
          rw [List.length_map, List.length_cons] at h4
          have : (asc ".cf").length = 3 := by decide
          rw [this] at h4
          generalize (name.reverse.takeWhile (· ≠ 46)).reverse = z at h4
          match z, h4 with
          | [x, y], _ => exact ⟨x, y, rfl⟩
          | [], h4 => simp at h4
          | [_], h4 => simp at h4
          | _ :: _ :: _ :: _, h4 => simp at h4
        obtain ⟨x, y, hxy⟩ := hl
        rw [hxy] at h
        obtain ⟨_, hx, hy⟩ := (lower_cf x y 46).1 h
        refine ⟨pre ++ d.reverse, x, y, ?_, hx, hy⟩
        have h5 := congrArg List.reverse hd
        rw [List.reverse_reverse, List.reverse_append, hxy, List.reverse_cons] at h5
        rw [hp, h5]
        simp
      · exact absurd h (by decide)
  · rintro ⟨pre, a, b, rfl, ha, hb⟩
    have ha46 : a ≠ 46 ∧ a ≠ 47 := by rcases ha with rfl | rfl <;> decide
    have hb46 : b ≠ 46 ∧ b ≠ 47 := by rcases hb with rfl | rfl <;> decide
    obtain ⟨pre', hname⟩ : ∃ pre', ((pre ++ [46, a, b]).reverse.takeWhile (· ≠ 47)).reverse = pre' ++ [46, a, b] := by
      refine ⟨(pre.reverse.takeWhile (· ≠ 47)).reverse, ?_⟩
      rw [List.reverse_append]
      show ((b :: a :: 46 :: pre.reverse).takeWhile _).reverse = _
      rw [List.takeWhile_cons_of_pos (by simp [hb46.2]), List.takeWhile_cons_of_pos (by simp [ha46.2]),
        List.takeWhile_cons_of_pos (by decide)]
      simp
    unfold extension
    simp only [hname]
    rw [if_neg, if_pos (by simp)]
    · rw [List.reverse_append]
      show isCf (46 :: ((b :: a :: 46 :: pre'.reverse).takeWhile _).reverse) = true
      rw [List.takeWhile_cons_of_pos (by simp [hb46.1]), List.takeWhile_cons_of_pos (by simp [ha46.1]),
        List.takeWhile_cons_of_neg (by decide)]
      exact (lower_cf a b 46).2 ⟨rfl, ha, hb⟩
    · rintro (h | h)
      · have := congrArg List.length h
        simp at this
      · have := congrArg List.length h
        simp at this

theorem slash_within {p leaf : Path} (h : leaf.head? ≠ some 47) : Spec.Within p leaf (slash p leaf) := by
  unfold slash Spec.Within
  by_cases h1 : p = []
  · rw [if_pos (Or.inl h1)]
    exact Or.inr ⟨Or.inl h1, rfl⟩
  · by_cases h2 : p.getLast? = some 47
    · rw [if_pos (Or.inr (Or.inl h2))]
      exact Or.inr ⟨Or.inr h2, rfl⟩
    · rw [if_neg (by rintro (h' | h' | h') <;> contradiction)]
      exact Or.inl ⟨h1, h2, by simp⟩

end Verif.App
