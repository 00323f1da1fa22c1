import Verif.Basic

/-!
# Regular expressions as Boost.Regex matches them (`boost::regex_match`)

A pattern is a syntax tree, `Matches` says which texts it matches as a whole, and
`Re.test` decides it by taking derivatives. `test_iff` shows they agree.
-/

namespace Verif.Tree
open Verif

inductive Re where
  | eps
  | cls (p : Char → Bool)
  | seq (a b : Re)
  | alt (a b : Re)
  | star (a : Re)
  | none

/-- The texts a pattern matches from beginning to end. -/
inductive Matches : Re → Str → Prop where
  | eps : Matches .eps []
  | cls {p c} : p c = true → Matches (.cls p) [c]
  | seq {a b s t} : Matches a s → Matches b t → Matches (.seq a b) (s ++ t)
  | altL {a b s} : Matches a s → Matches (.alt a b) s
  | altR {a b s} : Matches b s → Matches (.alt a b) s
  | starNil {a} : Matches (.star a) []
  | starCons {a s t} : Matches a s → Matches (.star a) t → Matches (.star a) (s ++ t)

namespace Re

def nullable : Re → Bool
  | eps => true
  | cls _ => false
  | seq a b => nullable a && nullable b
  | alt a b => nullable a || nullable b
  | star _ => true
  | none => false

def deriv (c : Char) : Re → Re
  | eps => none
  | cls p => if p c then eps else none
  | seq a b => if nullable a then alt (seq (deriv c a) b) (deriv c b) else seq (deriv c a) b
  | alt a b => alt (deriv c a) (deriv c b)
  | star a => seq (deriv c a) (star a)
  | none => none

def test (r : Re) : Str → Bool
  | [] => nullable r
  | c :: s => test (deriv c r) s

/-! Pattern notation. -/

/-- `a?` -/
def opt (a : Re) : Re := alt a eps
/-- `a+` -/
def plus (a : Re) : Re := seq a (star a)
/-- `a{n}` -/
def rep (a : Re) : Nat → Re
  | 0 => eps
  | n + 1 => seq a (rep a n)
/-- a literal character -/
def chr (c : Char) : Re := cls (· == c)
/-- a literal text -/
def lit : Str → Re
  | [] => eps
  | c :: s => seq (chr c) (lit s)

/-- Some class of the pattern contains the character. -/
def uses (c : Char) : Re → Bool
  | eps => false
  | cls p => p c
  | seq a b => uses c a || uses c b
  | alt a b => uses c a || uses c b
  | star a => uses c a
  | none => false

end Re

theorem nullable_iff (r : Re) : Re.nullable r = true ↔ Matches r [] := by
  induction r with
  | eps => simp [Re.nullable]; exact .eps
  | cls p => simp only [Re.nullable]; constructor
             · intro h; cases h
             · intro h; cases h
  | seq a b iha ihb =>
    simp only [Re.nullable, Bool.and_eq_true, iha, ihb]
    constructor
    · rintro ⟨h1, h2⟩; exact Matches.seq h1 h2
    · intro h
      generalize hs : ([] : Str) = u at h
      cases h with
      | seq h1 h2 =>
        rw [eq_comm, List.append_eq_nil_iff] at hs
        obtain ⟨rfl, rfl⟩ := hs
        exact ⟨h1, h2⟩
  | alt a b iha ihb =>
    simp only [Re.nullable, Bool.or_eq_true, iha, ihb]
    constructor
    · rintro (h | h)
      · exact .altL h
      · exact .altR h
    · intro h; cases h with
      | altL h => exact .inl h
      | altR h => exact .inr h
  | star a _ => simp [Re.nullable]; exact .starNil
  | none => simp only [Re.nullable]; constructor
            · intro h; cases h
            · intro h; cases h

theorem star_cons_inv {a : Re} {r : Re} {u : Str} (h : Matches r u) : ∀ {c s}, r = .star a → u = c :: s →
    ∃ s1 s2, s = s1 ++ s2 ∧ Matches a (c :: s1) ∧ Matches (.star a) s2 := by
  induction h with
  | starNil => intro c s _ h; cases h
  | @starCons a' x y h1 h2 _ ih2 =>
    intro c s hr hu
    cases hr
    cases x with
    | nil => exact ih2 rfl (by simpa using hu)
    | cons d x =>
      simp only [List.cons_append, List.cons.injEq] at hu
      obtain ⟨rfl, rfl⟩ := hu
      exact ⟨x, y, rfl, h1, h2⟩
  | eps => intro _ _ h; cases h
  | cls => intro _ _ h; cases h
  | seq => intro _ _ h; cases h
  | altL => intro _ _ h; cases h
  | altR => intro _ _ h; cases h

theorem deriv_iff (c : Char) (r : Re) : ∀ s, Matches (Re.deriv c r) s ↔ Matches r (c :: s) := by
  induction r with
  | eps => intro s; simp only [Re.deriv]; constructor <;> (intro h; cases h)
  | none => intro s; simp only [Re.deriv]; constructor <;> (intro h; cases h)
  | cls p =>
    intro s
    simp only [Re.deriv]
    constructor
    · intro h
      by_cases hp : p c = true
      · rw [if_pos hp] at h; cases h; exact .cls hp
      · rw [if_neg hp] at h; cases h
    · intro h
      cases h with
      | cls hp => rw [if_pos hp]; exact .eps
  | alt a b iha ihb =>
    intro s
    simp only [Re.deriv]
    constructor
    · intro h
      cases h with
      | altL h => exact .altL ((iha s).mp h)
      | altR h => exact .altR ((ihb s).mp h)
    · intro h
      cases h with
      | altL h => exact .altL ((iha s).mpr h)
      | altR h => exact .altR ((ihb s).mpr h)
  | seq a b iha ihb =>
    intro s
    have key : Matches (.seq a b) (c :: s) ↔
        (∃ s1 s2, s = s1 ++ s2 ∧ Matches a (c :: s1) ∧ Matches b s2) ∨
        (Matches a [] ∧ Matches b (c :: s)) := by
      constructor
      · intro h
        generalize hu : c :: s = u at h
        cases h with
        | @seq _ _ x y h1 h2 =>
          cases x with
          | nil => simp at hu; subst hu; exact .inr ⟨h1, h2⟩
          | cons d x =>
            simp only [List.cons_append, List.cons.injEq] at hu
            obtain ⟨rfl, rfl⟩ := hu
            exact .inl ⟨x, y, rfl, h1, h2⟩
      · rintro (⟨s1, s2, rfl, h1, h2⟩ | ⟨h1, h2⟩)
        · exact Matches.seq h1 h2
        · exact Matches.seq h1 h2
    rw [key]
    have inv : ∀ x y u, Matches (.seq x y) u ↔ ∃ s1 s2, u = s1 ++ s2 ∧ Matches x s1 ∧ Matches y s2 := by
      intro x y u
      constructor
      · intro h; cases h with
        | seq h1 h2 => exact ⟨_, _, rfl, h1, h2⟩
      · rintro ⟨_, _, rfl, h1, h2⟩; exact .seq h1 h2
    simp only [Re.deriv]
    by_cases hn : Re.nullable a = true
    · rw [if_pos hn]
      have hna := (nullable_iff a).mp hn
      constructor
      · intro h
        cases h with
        | altL h =>
          obtain ⟨s1, s2, rfl, h1, h2⟩ := (inv _ _ _).mp h
          exact .inl ⟨s1, s2, rfl, (iha s1).mp h1, h2⟩
        | altR h => exact .inr ⟨hna, (ihb s).mp h⟩
      · rintro (⟨s1, s2, rfl, h1, h2⟩ | ⟨_, h2⟩)
        · exact .altL ((inv _ _ _).mpr ⟨s1, s2, rfl, (iha s1).mpr h1, h2⟩)
        · exact .altR ((ihb s).mpr h2)
    · rw [if_neg hn]
      have hna : ¬ Matches a [] := fun h => hn ((nullable_iff a).mpr h)
      constructor
      · intro h
        obtain ⟨s1, s2, rfl, h1, h2⟩ := (inv _ _ _).mp h
        exact .inl ⟨s1, s2, rfl, (iha s1).mp h1, h2⟩
      · rintro (⟨s1, s2, rfl, h1, h2⟩ | ⟨h1, _⟩)
        · exact (inv _ _ _).mpr ⟨s1, s2, rfl, (iha s1).mpr h1, h2⟩
        · exact absurd h1 hna
  | star a iha =>
    intro s
    simp only [Re.deriv]
    constructor
    · intro h
      cases h with
      | seq h1 h2 => exact Matches.starCons ((iha _).mp h1) h2
    · intro h
      obtain ⟨s1, s2, rfl, h1, h2⟩ := star_cons_inv h rfl rfl
      exact Matches.seq ((iha _).mpr h1) h2

/-- The test by derivatives decides whole-text matching. -/
theorem test_iff (r : Re) (s : Str) : Re.test r s = true ↔ Matches r s := by
  induction s generalizing r with
  | nil => exact nullable_iff r
  | cons c s ih => simp only [Re.test]; rw [ih, deriv_iff]

/-- A matched text consists of characters the pattern mentions. -/
theorem matches_uses {r : Re} {s : Str} (h : Matches r s) : ∀ c ∈ s, Re.uses c r = true := by
  induction h with
  | eps => intro c hc; simp at hc
  | cls hp => intro c hc; simp at hc; subst hc; exact hp
  | seq _ _ ih1 ih2 =>
    intro c hc
    simp only [List.mem_append] at hc
    simp only [Re.uses, Bool.or_eq_true]
    rcases hc with hc | hc
    · exact .inl (ih1 c hc)
    · exact .inr (ih2 c hc)
  | altL _ ih => intro c hc; simp only [Re.uses, Bool.or_eq_true]; exact .inl (ih c hc)
  | altR _ ih => intro c hc; simp only [Re.uses, Bool.or_eq_true]; exact .inr (ih c hc)
  | starNil => intro c hc; simp at hc
  | starCons _ _ ih1 ih2 =>
    intro c hc
    simp only [List.mem_append] at hc
    rcases hc with hc | hc
    · exact ih1 c hc
    · exact ih2 c hc

end Verif.Tree
