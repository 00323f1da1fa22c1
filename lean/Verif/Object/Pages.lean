import Verif.Cache.Weak
import Verif.Object.FreeLemmas

/-!
# The plain list of pages stands for the cached database (C17)

The object modules work on a list of pages with an oracle for pages handed out unread.
Here this view is derived from the model of the cache: as long as the cache satisfies its
invariant for the list, each step on the list is a step of the cache, for the oracle answer
the cache gives, and the invariant holds again. So a run on the list is a run of the
database for some oracle; theorems about the list hold for every oracle.
-/

namespace Verif.Object
open Verif

theorem putLength_splice (n : Nat) : Cache.Spec.putLength n = fun p => splice p 12 (le32 n) := by
  rw [← Cache.putLength_eq]
  rfl

/-- A page handed out for writing, and a store through the pointer. `b` is what the cache makes of
the question whether the page is in memory. -/
theorem store_is_cache_store (e : Env) (s : St) (d : Cache.Db) (disk : Bytes) (h : Cache.Inv d ⟨s.pages, disk⟩)
    (hP : e.P = d.c.page) (n now off : Nat) (read : Bool) (buf : Bytes) (hoff : off + buf.length ≤ e.P)
    (hf : ∀ p ∈ s.pages, p.length = e.P) :
    ∃ b : Bool, e.ora s.tick = b → ∀ s0 s1, touch e s n read = .ok s0 → poke s0 n off buf = .ok s1 →
      ∃ d', d.putBlock n read (fun p => splice p off buf) now = .ok d' ∧ d'.c.page = d.c.page ∧
        Cache.Inv d' ⟨s1.pages, disk⟩ := by
  have hlen : s.pages.length = d.length := by
    have := Cache.length_logical d.c.fs.file d.c.page 0 d.c.blocks
    rw [h.pages, h.len] at this
    exact this
  have hsp : ∀ p : Bytes, p.length = d.c.page → (splice p off buf).length = d.c.page := by
    intro p hp
    rw [length_splice p off buf (by omega)]; exact hp
  by_cases hn : n < d.length
  · obtain ⟨p, d', b, a1, a2, a3, a4, a5, a6⟩ := Cache.put_weak d _ h n now read (fun p => splice p off buf) hn hsp
    refine ⟨b, ?_⟩
    intro hora s0 s1 ht hp
    refine ⟨d', a2, a3, ?_⟩
    simp only at a1 a6
    unfold touch at ht
    rw [if_neg (by omega), if_neg (by omega)] at ht
    have hpl : p.length = e.P := hf p (List.mem_of_getElem? a1)
    cases read with
    | true =>
      rw [if_pos rfl] at ht
      cases ht
      rw [poke_ok s n off buf p a1 (by omega)] at hp
      cases hp
      rw [a5 rfl] at a6
      exact a6
    | false =>
      rw [if_neg (by simp), hora] at ht
      cases b with
      | true =>
        simp only [if_true] at ht a6
        cases ht
        rw [poke_ok { s with tick := s.tick + 1 } n off buf p a1 (by omega)] at hp
        cases hp
        exact a6
      | false =>
        simp only [Bool.false_eq_true, if_false] at ht a6
        cases ht
        rw [poke_ok _ n off buf (List.replicate e.P 0) (get_set_eq _ _ _ (by omega)) (by rw [List.length_replicate]; exact hoff)] at hp
        cases hp
        simp only [List.set_set]
        rw [hP]
        exact a6
  · refine ⟨true, ?_⟩
    intro _ s0 s1 ht hp
    unfold touch at ht
    by_cases hn2 : n = d.length
    · rw [if_neg (by omega), if_pos (by omega)] at ht
      cases read with
      | true => rw [if_pos rfl] at ht; cases ht
      | false =>
        rw [if_neg (by simp)] at ht
        cases ht
        obtain ⟨d', a1, a2, a3, a4⟩ := Cache.append_weak d _ h now (fun p => splice p off buf) hsp
        subst hn2
        refine ⟨d', a1, a2, ?_⟩
        have hl : (s.pages.modify 0 (fun p => splice p 12 (le32 (d.length + 1)))).length = d.length := by
          rw [List.length_modify, hlen]
        rw [poke_ok _ d.length off buf (List.replicate e.P 0) (by
          rw [List.getElem?_append_right (by omega), hl]; simp) (by rw [List.length_replicate]; exact hoff)] at hp
        cases hp
        simp only
        rw [putLength_splice] at a4
        rw [List.set_append_right _ _ (by omega), hl, hP]
        simpa using a4
    · rw [if_pos (by omega)] at ht
      cases ht

/-- A page that is only looked at. -/
theorem fetch_is_cache_fetch (s : St) (d : Cache.Db) (disk : Bytes) (h : Cache.Inv d ⟨s.pages, disk⟩) (n now : Nat) (p : Bytes)
    (hp : s.pages[n]? = some p) :
    ∃ d', d.getBlock n now = .ok (p, d') ∧ Cache.Inv d' ⟨s.pages, disk⟩ := by
  have hlen : s.pages.length = d.length := by
    have := Cache.length_logical d.c.fs.file d.c.page 0 d.c.blocks
    rw [h.pages, h.len] at this
    exact this
  obtain ⟨p', d', a1, a2, a3⟩ := Cache.read_step d _ h n now (by rw [← hlen]; exact getElem?_some_lt hp)
  simp only at a1
  rw [hp] at a1
  cases a1
  exact ⟨d', a2, a3⟩

/-- Non-vacuity: a database opened a moment ago. -/
example : Cache.Inv (Cache.Db.open Cache.sampleFile 16) ⟨Cache.pagesOf Cache.sampleFile 16, Cache.sampleFile⟩ :=
  Cache.open_inv _ _ (by decide) (by decide) (by decide)

end Verif.Object
