import Verif.Model.Basic

/-! Model of /repo/src/probability.rs. -/
namespace Rstat
open Classical

/-- src/probability.rs:14-16 `InvalidProbabilityError(f64)` -/
structure InvalidProbabilityError where
  value : F64

/-- src/probability.rs:22-28 `Probability(pub(crate) f64)` -/
@[ext] structure Probability where
  val : F64

namespace Probability
variable [FP]

/-- src/probability.rs:47-53 `Probability::new`; src/probability.rs:144-148 `try_from` is the same function -/
noncomputable def new (p : F64) : Except InvalidProbabilityError Probability :=
  if 0 ≤ p ∧ p ≤ 1 then .ok ⟨p⟩ else .error ⟨p⟩

/-- src/probability.rs:56 `new_unchecked` -/
def newUnchecked (p : F64) : Probability := ⟨p⟩

/-- src/probability.rs:59 `zero` -/
noncomputable def zero : Probability := ⟨0⟩
/-- src/probability.rs:62 `half` -/
noncomputable def half : Probability := ⟨F64.fin (1 / 2)⟩
/-- src/probability.rs:65 `one` -/
noncomputable def one : Probability := ⟨1⟩

/-- src/probability.rs:75 `unwrap` (also `From<Probability> for f64`, :150-152) -/
def unwrap (p : Probability) : F64 := p.val

/-- src/probability.rs:86 `is_valid` -/
def isValid (p : Probability) : Prop := p.val ≤ 1 ∧ 0 ≤ p.val

/-- src/probability.rs:96,106,116,126 `ln`, `log2`, `powf`, `powi` -/
noncomputable def ln (p : Probability) : F64 := p.val.ln
noncomputable def log2 (p : Probability) : F64 := p.val.log2
noncomputable def powf (p : Probability) (e : F64) : F64 := p.val.powf e
noncomputable def powi (p : Probability) (e : ℤ) : F64 := p.val.powi e

/-- src/probability.rs:277-279 `Add` -/
noncomputable def add (p q : Probability) : Except InvalidProbabilityError Probability :=
  new (p.val + q.val)
/-- src/probability.rs:281-283 `Sub` -/
noncomputable def sub (p q : Probability) : Except InvalidProbabilityError Probability :=
  new (p.val - q.val)
/-- src/probability.rs:285-287 `Mul` (unchecked) -/
noncomputable def mul (p q : Probability) : Probability := newUnchecked (p.val * q.val)
/-- src/probability.rs:289-291 `Div` -/
noncomputable def div (p q : Probability) : Except InvalidProbabilityError Probability :=
  new (p.val / q.val)
/-- src/probability.rs:293-295 `Rem` -/
noncomputable def rem (p q : Probability) : Except InvalidProbabilityError Probability :=
  new (p.val % q.val)
/-- src/probability.rs:297-307 `Not` (unchecked) -/
noncomputable def not (p : Probability) : Probability := newUnchecked (1 - p.val)

/-- src/probability.rs:162-168 `Sum<Probability> for f64` -/
noncomputable def sum (ps : List Probability) : F64 := F64.sum (ps.map unwrap)

end Probability

/-- failure of `SimplexVector::try_from`: a bad entry, or a bad sum (src/probability.rs:309-311, 419-435) -/
inductive SimplexError where
  | prob (e : InvalidProbabilityError)
  | simplex (ps : List F64)

/-- src/probability.rs:313-326 `SimplexVector<K>`; the const generic `K` is the list length -/
@[ext] structure SimplexVector where
  ps : List F64

namespace SimplexVector
variable [FP]

/-- the accumulation loop of `try_from`, src/probability.rs:423-427 -/
noncomputable def sumLoop (z : F64) : List F64 → Except InvalidProbabilityError F64
  | [] => .ok z
  | p :: ps =>
    match Probability.new p with
    | .error e => .error e
    | .ok q => sumLoop (z + q.val) ps

/-- the tolerance literal `1e-5`, src/probability.rs:429 -/
noncomputable def tol : F64 := F64.lit (1 / 100000)

/-- src/probability.rs:330-332 `new`, :419-435 `try_from` -/
noncomputable def new (ps : List F64) : Except SimplexError SimplexVector :=
  match sumLoop 0 ps with
  | .error e => .error (.prob e)
  | .ok z => if (z - 1).abs < tol then .ok ⟨ps⟩ else .error (.simplex ps)

/-- src/probability.rs:335 `new_unchecked` -/
def newUnchecked (ps : List F64) : SimplexVector := ⟨ps⟩

/-- the `scan` of `sample_index`: running sums, src/probability.rs:342-346 -/
noncomputable def prefixes (state : F64) : List F64 → List F64
  | [] => []
  | p :: ps => (state + p) :: prefixes (state + p) ps

/-- `Iterator::position(|p| rval < p)`, src/probability.rs:349 -/
noncomputable def position (rval : F64) : List F64 → Option ℕ
  | [] => none
  | p :: ps => if rval < p then some 0 else (position rval ps).map (· + 1)

/-- pure part of `sample_index` given the draw `rval`, src/probability.rs:349; `unwrap_or`'s argument
`self.len() - 1` is evaluated eagerly -/
noncomputable def indexOf (pr : Profile) (v : SimplexVector) (rval : F64) : Except Panic ℕ :=
  match usub pr v.ps.length 1 with
  | .error e => .error e
  | .ok last => .ok ((position rval (prefixes 0 v.ps)).getD last)

/-- src/probability.rs:341-350 `sample_index` -/
noncomputable def sampleIndex {σ : Type} (pr : Profile) (g : Rng σ) (v : SimplexVector) (s : σ) :
    Except Panic ℕ × σ :=
  let (rval, s') := g.gen s
  (v.indexOf pr rval, s')

/-- src/probability.rs:364-368 `centre` -/
noncomputable def centre (K : ℕ) : SimplexVector :=
  newUnchecked (List.replicate K (1 / F64.ofNat K))

/-- the arithmetic of `SimplexVector::sample` after the uniform draws `ss = [s_1..s_{K-1}]`
(src/probability.rs:389-410): `probs[i] = -ln s_i / Σ s`, `probs[0] = 1 - Σ probs[i]` -/
noncomputable def fromDraws (ss : List F64) : SimplexVector :=
  let sum := ss.foldl (· + ·) 0
  let probs := ss.map (fun s => (-(s.ln)) / sum)
  let alt := probs.foldl (· + ·) 0
  ⟨(1 - alt) :: probs⟩

/-- the `K-1` uniform draws, in order (src/probability.rs:393-398). `draw` is
`Uniform::<f64>::new_unchecked(0,1).sample(rng)`. -/
def draws {σ : Type} (draw : σ → F64 × σ) : ℕ → σ → List F64 × σ
  | 0, s => ([], s)
  | n + 1, s =>
    let (x, s') := draw s
    let (xs, s'') := draws draw n s'
    (x :: xs, s'')

/-- src/probability.rs:389-410 `SimplexVector::<K>::sample`; for `K = 0` the write `probs[0]` panics -/
noncomputable def sample {σ : Type} (draw : σ → F64 × σ) (K : ℕ) (s : σ) : Except Panic SimplexVector × σ :=
  match K with
  | 0 => (.error .index, s)
  | n + 1 =>
    let (ss, s') := draws draw n s
    (.ok (fromDraws ss), s')

end SimplexVector
end Rstat
