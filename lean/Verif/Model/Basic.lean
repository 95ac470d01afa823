/-!
# Common vocabulary of the model

Text is a list of characters.  Generator functions return `Res`: Rust's
`Result` plus the possibility of a panic (`panic!`, `assert!`, `unwrap`,
`todo!`, `unimplemented!`).
-/

namespace Progenitor

/-- Text; Rust `String`/`&str`. -/
abbrev Str := List Char

/-- Bytes. -/
abbrev Bytes := List UInt8

/-- Outcome of a generator function.  `err` is a Rust `Err(_)`, `panic` is an
unwinding panic (from `panic!`, `assert!`, `expect`, `todo!`, ...). -/
inductive Res (α : Type _) where
  | ok (a : α)
  | err (msg : Str)
  | panic (msg : Str)
  deriving DecidableEq, Repr

namespace Res

@[simp] def bind {α β} : Res α → (α → Res β) → Res β
  | ok a, f => f a
  | err m, _ => err m
  | panic m, _ => panic m

instance : Monad Res where
  pure := ok
  bind := bind

@[simp] theorem pure_eq {α} (a : α) : (pure a : Res α) = ok a := rfl
@[simp] theorem bind_ok {α β} (a : α) (f : α → Res β) : (ok a >>= f) = f a := rfl
@[simp] theorem bind_err {α β} (m) (f : α → Res β) : (err m >>= f) = err m := rfl
@[simp] theorem bind_panic {α β} (m) (f : α → Res β) : (panic m >>= f) = panic m := rfl

/-- The function returned `Ok`. -/
def isOk {α} : Res α → Bool
  | ok _ => true
  | _ => false

/-- The function panicked. -/
def isPanic {α} : Res α → Bool
  | panic _ => true
  | _ => false

end Res

end Progenitor
