import Verif.Float.Core

/-! Shared vocabulary of the model: panics, build profile, random number generators. -/
namespace Rstat

/-- ways in which the code can stop instead of returning -/
inductive Panic where
  /-- `undefined!()` (src/lib.rs:17-20) -/
  | undefined
  /-- `unimplemented!()` -/
  | unimplemented
  /-- `todo!()` -/
  | todo
  /-- integer overflow check of a debug build -/
  | overflow
  /-- slice/array index out of bounds -/
  | index
  /-- `unwrap()` on an `Err`/`None` -/
  | unwrap
  /-- explicit `panic!`, `unreachable!`, failed `assert!` -/
  | explicit
  /-- unbounded mutual recursion of default methods: the call never returns -/
  | diverges
  deriving DecidableEq, Repr

/-- Cargo profile: decides what an integer overflow does -/
inductive Profile where
  | debug | release
  deriving DecidableEq, Repr

/-- 2^64, the size of `u64`/`usize` -/
def U64 : ℕ := 2 ^ 64

/-- `usize`/`u64` subtraction: panics in debug, wraps in release -/
def usub (pr : Profile) (a b : ℕ) : Except Panic ℕ :=
  if b ≤ a then .ok (a - b)
  else match pr with
    | .debug => .error .overflow
    | .release => .ok (a + U64 - b)

/-- `u64`/`usize` addition -/
def uadd (pr : Profile) (a b : ℕ) : Except Panic ℕ :=
  if a + b < U64 then .ok (a + b)
  else match pr with
    | .debug => .error .overflow
    | .release => .ok ((a + b) % U64)

/-- `u64`/`usize` multiplication -/
def umul (pr : Profile) (a b : ℕ) : Except Panic ℕ :=
  if a * b < U64 then .ok (a * b)
  else match pr with
    | .debug => .error .overflow
    | .release => .ok ((a * b) % U64)

/-- A random number generator with state `σ`: `gen` is `rng.gen::<f64>()`. -/
structure Rng (σ : Type) where
  gen : σ → F64 × σ

/-- What `rand`'s `Standard` distribution guarantees for `f64`: a multiple of 2^-53 in [0,1). -/
def Rng.Ok {σ : Type} (g : Rng σ) : Prop :=
  ∀ s, ∃ k : ℕ, k < 2 ^ 53 ∧ (g.gen s).1 = F64.fin ((k : ℝ) / 2 ^ 53)

end Rstat
