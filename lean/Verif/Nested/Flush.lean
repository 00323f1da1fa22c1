import Verif.Nested.Ops

/-! # Lemmas: flushing and closing with inner containers -/

namespace Verif.Nested
open Verif Verif.Stream Verif.Container Verif.Container.Spec Verif.Nested.Spec Verif.Unicode Verif.Unicode.Spec

/-! ## What inner containers leave -/

/-- The contents after the inner containers have left their bytes. -/
def settle : Contents → List (Option (Bytes × Bool)) → Contents
  | p :: ps, some (b, _) :: bs => (p.1, b) :: settle ps bs
  | p :: ps, none :: bs => p :: settle ps bs
  | ps, _ => ps

/-- Bytes left without the mark are those that were there. -/
def Same : Contents → List (Option (Bytes × Bool)) → Prop
  | p :: ps, some (b, m) :: bs => (m = false → b = p.2) ∧ Same ps bs
  | _ :: ps, none :: bs => Same ps bs
  | _, _ => True

theorem settle_length (c : Contents) : ∀ bs, (settle c bs).length = c.length := by
  induction c with
  | nil => intro bs; rfl
  | cons p ps ih =>
    intro bs
    match bs with
    | [] => rfl
    | none :: bs => rw [settle, List.length_cons, ih]; rfl
    | some (b, m) :: bs => rw [settle, List.length_cons, ih]; rfl

theorem putBack_inv {cd : Codec} {s : Store} (k : Catalog) (rest : Ghost) : ∀ (done : Ghost) (bs : List (Option (Bytes × Bool))),
    Inv cd { k with ents := (done ++ rest).map Prod.fst } s (done ++ rest) → Same (rest.map Prod.snd) bs →
    (∀ b m, some (b, m) ∈ bs → Packs cd b) →
    ∃ ls', Inv cd { k with ents := done.map Prod.fst ++ putBack (rest.map Prod.fst) bs } s (done ++ ls') ∧
      ls'.map Prod.snd = settle (rest.map Prod.snd) bs := by
  induction rest with
  | nil =>
    intro done bs h _ _
    refine ⟨[], ?_, by simp [settle]⟩
    have : putBack ([] : List File) bs = [] := by cases bs <;> rfl
    simp only [List.map_nil, this, List.append_nil] at h ⊢
    exact h
  | cons x rest ih =>
    intro done bs h hs hp
    match bs with
    | [] =>
      refine ⟨x :: rest, ?_, rfl⟩
      simp only [List.map_cons, putBack]
      rw [List.map_append, List.map_cons] at h
      exact h
    | none :: bs =>
      simp only [List.map_cons, Same] at hs
      obtain ⟨ls', h1, h2⟩ := ih (done ++ [x]) bs (by rw [List.append_assoc]; exact h) hs (fun b m hb => hp b m (List.mem_cons_of_mem _ hb))
      refine ⟨x :: ls', ?_, ?_⟩
      · rw [List.append_assoc] at h1
        simp only [List.map_cons, putBack]
        rw [List.map_append, List.append_assoc] at h1
        exact h1
      · simp only [List.map_cons, settle]
        rw [h2]
    | some (b, m) :: bs =>
      simp only [List.map_cons, Same] at hs
      have hx := h.core.ok x (by simp)
      have hb := hp b m (by simp)
      have hsw := swap_inv h { x.1 with content := some b, dataMod := x.1.dataMod || m } b rfl rfl rfl
        ⟨hx.name, hx.isName, hx.created, fun b' hb' => (Option.some.inj hb').symm, fun hc => by simp at hc, hb, hx.dataLive, hx.headLive, by
          intro h0
          simp only [Bool.or_eq_false_iff] at h0
          obtain ⟨q, h1, h2⟩ := hx.dataClean h0.1
          exact ⟨q, h1, by rw [hs.1 h0.2]; exact h2⟩, hx.headClean, hx.apart, hx.notDir⟩
      obtain ⟨ls', h1, h2⟩ := ih (done ++ [({ x.1 with content := some b, dataMod := x.1.dataMod || m }, (x.2.1, b))]) bs
        (by rw [List.append_assoc]; exact hsw) hs.2 (fun b m hb => hp b m (List.mem_cons_of_mem _ hb))
      refine ⟨({ x.1 with content := some b, dataMod := x.1.dataMod || m }, (x.2.1, b)) :: ls', ?_, ?_⟩
      · rw [List.append_assoc] at h1
        simp only [List.map_cons, putBack]
        rw [List.map_append, List.append_assoc] at h1
        exact h1
      · simp only [List.map_cons, settle]
        rw [h2]

/-! ## The version tells whether anything was written -/

theorem flushFile_marks {cd : Codec} {fuel : Nat} {c c' : Cat} {e e' : File} (h : flushFile cd fuel c e = .ok (some (c', e'))) :
    c' = c ∨ c'.modified = true := by
  unfold flushFile at h
  split at h
  · cases h; exact Or.inl rfl
  · obtain ⟨r, hr, h⟩ := bind_ok h
    cases r with
    | none => cases h
    | some r =>
      obtain ⟨c1, e1⟩ := r
      simp only at h
      have h1 : c1 = c ∨ c1.modified = true := by
        unfold flushData at hr
        split at hr
        · obtain ⟨p, _, hr⟩ := bind_ok hr
          obtain ⟨r2, hr2, hr⟩ := bind_ok hr
          cases r2 with
          | none => cases hr
          | some r2 =>
            obtain ⟨c2, a2⟩ := r2
            cases hr
            exact Or.inr (writeBlock_tells hr2).1
        · cases hr; exact Or.inl rfl
      unfold flushHeader at h
      split at h
      · obtain ⟨p, _, h⟩ := bind_ok h
        obtain ⟨r2, hr2, h⟩ := bind_ok h
        cases r2 with
        | none => cases h
        | some r2 =>
          obtain ⟨c2, a2⟩ := r2
          cases h
          exact Or.inr (writeBlock_tells hr2).1
      · cases h; exact h1

theorem flushFiles_marks {cd : Codec} {fuel : Nat} (rest : List File) : ∀ (c c' : Cat) (done es : List File),
    flushFiles cd fuel c done rest = .ok (some (c', es)) → (c' = c ∨ c'.modified = true) := by
  induction rest with
  | nil => intro c c' done es h; rw [flushFiles] at h; cases h; exact Or.inl rfl
  | cons e rest ih =>
    intro c c' done es h
    rw [flushFiles] at h
    obtain ⟨r, hr, h⟩ := bind_ok h
    cases r with
    | none => cases h
    | some r =>
      obtain ⟨c1, e1⟩ := r
      simp only at h
      rcases ih _ _ _ _ h with h1 | h1
      · rcases flushFile_marks hr with h2 | h2
        · exact Or.inl (h1.trans h2)
        · exact Or.inr (by rw [h1]; exact h2)
      · exact Or.inr h1

/-- What destroying reports is what flushing leaves; and bytes without the mark are those that were there. -/
theorem flush_marks {cd : Codec} {fuel : Nat} {k k' : Catalog} (h : flush cd fuel k = .ok (some k')) :
    destroyMarked cd fuel k = .ok (some (k'.cat.data.data, decide (k'.ver ≠ k.ver))) ∧ k'.cat.modified = false ∧
    (decide (k'.ver ≠ k.ver) = false → k.fatMod = false ∧ (k.cat.emptyMod = false → k'.cat.data.data = k.cat.data.data)) := by
  unfold flush at h
  obtain ⟨r, hr, h⟩ := bind_ok h
  cases r with
  | none => cases h
  | some r =>
    obtain ⟨c1, es⟩ := r
    simp only at h
    obtain ⟨r2, hr2, h⟩ := bind_ok h
    cases r2 with
    | none => cases h
    | some c2 =>
      simp only at h
      obtain ⟨r3, hr3, h⟩ := bind_ok h
      obtain ⟨c3, v⟩ := r3
      cases h
      have hv : decide (v ≠ k.ver) = c2.modified ∧ c3.modified = false ∧ (c2.modified = false → c2.emptyMod = false → c3.data = c2.data) := by
        unfold flushHead at hr3
        obtain ⟨m, hm, hr3⟩ := bind_ok hr3
        obtain ⟨m2, hm2, hr3⟩ := bind_ok hr3
        cases hr3
        refine ⟨?_, rfl, ?_⟩
        · cases c2.modified <;> simp
        · intro h1 h2
          rw [h2] at hm
          rw [h1] at hm2
          cases hm
          cases hm2
          rfl
      refine ⟨?_, hv.2.1, ?_⟩
      · unfold destroyMarked
        have h1 := closeFiles_of_flush k.ents _ _ [] _ hr
        rw [List.map_nil] at h1
        rw [h1, Outcome.ok_bind]
        simp only
        have h2 : flushFat fuel c1 (es.map shut) k.fatMod = .ok (some c2) := by
          unfold flushFat at hr2 ⊢
          rw [fat_shut]
          exact hr2
        rw [h2, Outcome.ok_bind]
        simp only
        rw [hr3, Outcome.ok_bind, hv.1]
      · simp only
        rw [hv.1]
        intro hm
        unfold flushFat at hr2
        cases hfm : k.fatMod with
        | true =>
          rw [hfm] at hr2
          simp only [if_true] at hr2
          obtain ⟨r4, hr4, hr2⟩ := bind_ok hr2
          cases r4 with
          | none => cases hr2
          | some r4 =>
            obtain ⟨c4, a4⟩ := r4
            cases hr2
            rw [(writeBlock_tells hr4).1] at hm
            cases hm
        | false =>
          rw [hfm] at hr2
          cases hr2
          refine ⟨rfl, fun hem => ?_⟩
          rcases flushFiles_marks _ _ _ _ _ hr with h1 | h1
          · rw [hv.2.2 hm (by rw [h1]; exact hem), h1]
          · rw [h1] at hm; cases hm

/-! ## Flushing everything -/

/-- There is room to flush the inner containers: below 2^31 - 1 bytes each. -/
def FitsS (fuel : Nat) : Subs → Prop
  | .nil => True
  | .none r => FitsS fuel r
  | .some k i r => FitsS fuel i ∧ (match flushSubs fuel i with
      | .ok (some (_, bi)) => extent k.cat + flushCost plainCodec { k with ents := putBack k.ents bi } < LAST
      | _ => True) ∧ FitsS fuel r

/-- What flushing the inner containers of `su` does. -/
def Flushed (fuel : Nat) (t : Tree) (su : Subs) (c : Contents) : Prop :=
  ∃ su' bs, flushSubs fuel su = .ok (some (su', bs)) ∧ destroySubs fuel su = .ok (some bs) ∧ Rel fuel t su' (settle c bs) ∧
    Rel fuel t (.blank c.length) (settle c bs) ∧ Same c bs ∧ ∀ b m, some (b, m) ∈ bs → b ≠ []

theorem flushed_none {fuel : Nat} {r t : Tree} {su : Subs} {p : List Nat × Bytes} {ps : Contents} (h : Flushed fuel r su ps)
    (h1 : ∀ su', Rel fuel r su' (settle ps (match flushSubs fuel su with | .ok (some (_, bs)) => bs | _ => [])) →
      Rel fuel t (.none su') (p :: settle ps (match flushSubs fuel su with | .ok (some (_, bs)) => bs | _ => []))) :
    Flushed fuel t (.none su) (p :: ps) := by
  obtain ⟨su', bs, e1, e2, h2, h3, h4, h5⟩ := h
  rw [e1] at h1
  refine ⟨.none su', none :: bs, ?_, ?_, h1 _ h2, h1 _ h3, h4, ?_⟩
  · rw [flushSubs, e1, Outcome.ok_bind]
  · rw [destroySubs, e2, Outcome.ok_bind]
  · intro b m hb
    rcases List.mem_cons.1 hb with hb | hb
    · cases hb
    · exact h5 b m hb

theorem flushSubs_ok {fuel : Nat} (hf : LAST ≤ fuel) : ∀ (t : Tree) (su : Subs) (c : Contents), Rel fuel t su c → FitsS fuel su → Flushed fuel t su c
  | .nil, su, c, h, _ => by
    cases su with
    | nil =>
      cases c with
      | nil => exact ⟨.nil, [], rfl, rfl, trivial, trivial, trivial, by simp⟩
      | cons => exact h.elim
    | none => cases c <;> exact h.elim
    | some => cases c <;> exact h.elim
  | .file n b r, su, c, h, hfit => by
    cases su with
    | nil => cases c <;> exact h.elim
    | none su =>
      cases c with
      | nil => exact h.elim
      | cons p ps => exact flushed_none (flushSubs_ok hf r su ps h.2 hfit) (fun su' hr => ⟨h.1, hr⟩)
    | some => cases c <;> exact h.elim
  | .dir n t r, su, c, h, hfit => by
    cases su with
    | nil => cases c <;> exact h.elim
    | none su =>
      cases c with
      | nil => exact h.elim
      | cons p ps => exact flushed_none (flushSubs_ok hf r su ps h.2.2 hfit) (fun su' hr => ⟨h.1, h.2.1, hr⟩)
    | some k i su =>
      cases c with
      | nil => exact h.elim
      | cons p ps =>
        obtain ⟨hp, ⟨s, ls, hi, hx, hflag, hr⟩, hrest⟩ := h
        obtain ⟨hfi, hfk, hfr⟩ := hfit
        obtain ⟨i', bi, e1, e2, h2, h3, h4, h5⟩ := flushSubs_ok hf t i _ hr hfi
        obtain ⟨su', bs, e1', e2', h2', h3', h4', h5'⟩ := flushSubs_ok hf r su ps hrest hfr
        rw [e1] at hfk
        simp only at hfk
        obtain ⟨ls1, hi1, hs1⟩ := putBack_inv (cd := plainCodec) k ls [] bi (by simpa using hi.same) h4 (fun b m hb => (plain_packs b).2 (h5 b m hb))
        simp only [List.map_nil, List.nil_append] at hi1
        rw [← hi.core.ents] at hi1
        obtain ⟨k', s', ls', ef, hi', hcl, hs', _, hfm', hem', hx'⟩ := flush_ok hi1 hfk fuel hf
        obtain ⟨hdm, hmo', hsame⟩ := flush_marks ef
        obtain ⟨kk, lls, eo, hio, hso, _, hxo⟩ := open_ok hi' hcl hfm' hem' hx' fuel hf
        have hne : k'.cat.data.data ≠ [] := by
          have := phys_length hi'.phys
          intro h0
          rw [h0] at this
          simp at this
        have hlen : lls.length = (ls.map Prod.snd).length := by
          have h6 := congrArg List.length hso
          rw [hs', hs1, settle_length] at h6
          simpa using h6
        refine ⟨.some k' i' su', some (k'.cat.data.data, decide (k'.ver ≠ k.ver)) :: bs, ?_, ?_, ?_, ?_, ⟨?_, h4'⟩, ?_⟩
        · rw [flushSubs, e1, Outcome.ok_bind]
          simp only
          rw [ef, Outcome.ok_bind]
          simp only
          rw [e1', Outcome.ok_bind]
        · rw [destroySubs, e2, Outcome.ok_bind]
          simp only
          rw [hdm, Outcome.ok_bind]
          simp only
          rw [e2', Outcome.ok_bind]
        · refine ⟨hp, ⟨s', ls', hi', hx', fun _ => ⟨hem', hmo', rfl⟩, ?_⟩, h2'⟩
          rw [hs', hs1]
          exact h2
        · refine ⟨hp, ⟨hne, kk, s', lls, eo, hio, by rw [hxo]; exact hx', ?_⟩, h3'⟩
          rw [hso, hs', hs1, hlen]
          exact h3
        · intro hm
          obtain ⟨h6, h7⟩ := hsame hm
          obtain ⟨h8, _, h9⟩ := hflag h6
          rw [h9]
          exact h7 h8
        · intro b m hb
          rcases List.mem_cons.1 hb with hb | hb
          · cases hb; exact hne
          · exact h5' b m hb

/-- There is room to flush everything, and the outermost codec can store what the inner containers leave. -/
def Fits (cd : Codec) (fuel : Nat) (n : Node) : Prop :=
  FitsS fuel n.subs ∧ match flushSubs fuel n.subs with
    | .ok (some (_, bs)) => (∀ x ∈ bs, match x with | some (b, _) => Packs cd b | none => True) ∧
      extent n.k.cat + flushCost cd { n.k with ents := putBack n.k.ents bs } < LAST
    | _ => True

theorem flushNode_ok {cd : Codec} {fuel : Nat} (hf : LAST ≤ fuel) {n : Node} {t : Tree} (h : NodeOk cd fuel n t) (hfit : Fits cd fuel n) :
    (∃ n', flushNode cd fuel n = .ok (some n') ∧ NodeOk cd fuel n' t) ∧ ∃ n', reopenNode cd fuel n = .ok (some n') ∧ NodeOk cd fuel n' t := by
  obtain ⟨s, ls, hi, hx, hr⟩ := h
  obtain ⟨hf1, hf2⟩ := hfit
  obtain ⟨su', bs, e1, e2, h2, h3, h4, h5⟩ := flushSubs_ok hf t n.subs _ hr hf1
  rw [e1] at hf2
  simp only at hf2
  obtain ⟨ls1, hi1, hs1⟩ := putBack_inv (cd := cd) n.k ls [] bs (by simpa using hi.same) h4 (fun b m hb => hf2.1 _ hb)
  simp only [List.map_nil, List.nil_append] at hi1
  rw [← hi.core.ents] at hi1
  obtain ⟨k', s', ls', ef, hi', hcl, hs', _, hfm', hem', hx'⟩ := flush_ok hi1 hf2.2 fuel hf
  refine ⟨⟨⟨k', su'⟩, ?_, s', ls', hi', hx', by rw [hs', hs1]; exact h2⟩, ?_⟩
  · rw [flushNode, e1, Outcome.ok_bind]
    simp only
    rw [ef, Outcome.ok_bind]
  · obtain ⟨kk, lls, eo, hio, hso, _, hxo⟩ := open_ok hi' hcl hfm' hem' hx' fuel hf
    refine ⟨⟨kk, .blank kk.ents.length⟩, ?_, s', lls, hio, by simp only; rw [hxo]; exact hx', ?_⟩
    · unfold reopenNode destroyNode
      rw [e2, Outcome.ok_bind]
      simp only
      rw [destroy_of_flush ef, Outcome.ok_bind]
      simp only
      rw [eo, Outcome.ok_bind]
    · have hlen : lls.length = (ls.map Prod.snd).length := by
        have h6 := congrArg List.length hso
        rw [hs', hs1, settle_length] at h6
        simpa using h6
      rw [hio.core.ents, List.length_map, hlen, hso, hs', hs1]
      exact h3

end Verif.Nested
