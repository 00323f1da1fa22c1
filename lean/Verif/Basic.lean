/-!
# Shared vocabulary of the model

Not tied to one source file: the three possible outcomes of running a piece of
C++ code, and little-endian integers.
-/

namespace Verif

/-- Result of running a piece of the C++ code.
* `ok a`  – it returned `a`;
* `throw` – it raised a C++ exception;
* `ub`    – it performed an access the language leaves undefined (out-of-bounds
  read or write, null or dangling dereference, use of uninitialised memory). -/
inductive Outcome (α : Type) where
  | ok (a : α)
  | throw
  | ub
  deriving DecidableEq, Repr

namespace Outcome

def bind {α β : Type} : Outcome α → (α → Outcome β) → Outcome β
  | ok a, f => f a
  | throw, _ => throw
  | ub, _ => ub

instance : Monad Outcome where
  pure := ok
  bind := bind

@[simp] theorem ok_bind {α β : Type} (a : α) (f : α → Outcome β) :
    (Outcome.ok a >>= f) = f a := rfl
@[simp] theorem throw_bind {α β : Type} (f : α → Outcome β) :
    ((Outcome.throw : Outcome α) >>= f) = .throw := rfl
@[simp] theorem ub_bind {α β : Type} (f : α → Outcome β) :
    ((Outcome.ub : Outcome α) >>= f) = .ub := rfl
@[simp] theorem pure_eq {α : Type} (a : α) : (pure a : Outcome α) = .ok a := rfl
@[simp] theorem map_ok {α β : Type} (g : α → β) (a : α) :
    (g <$> (Outcome.ok a)) = .ok (g a) := rfl
@[simp] theorem map_throw {α β : Type} (g : α → β) :
    (g <$> (Outcome.throw : Outcome α)) = .throw := rfl
@[simp] theorem map_ub {α β : Type} (g : α → β) :
    (g <$> (Outcome.ub : Outcome α)) = .ub := rfl

end Outcome

/-- A byte. -/
abbrev Byte := UInt8
/-- A byte buffer, file, page or stream contents. -/
abbrev Bytes := List UInt8
/-- A `std::string`: one `Char` per code unit. -/
abbrev Str := List Char

end Verif
