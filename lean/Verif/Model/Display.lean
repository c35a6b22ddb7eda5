import Verif.Model.Dist.Params
import Verif.Model.Constraints
import Verif.Model.MvLogNormal

/-! Model of every `impl Display` of the crate. Text is a list of characters. Integers are printed in decimal by `decN` /
`decI`; Rust's `{}` and `{:?}` printers of `f64` are left abstract (`NumFmt`; contract in `Spec/Display.lean`).
Not modelled: formatter flags (width, precision, `#`), `Display for MvNormal<N, M, S>` (src/normal/multivariate.rs:48-52), whose
bound `M: Display` no mean vector `[f64; N]` meets. -/
namespace Rstat

abbrev Text := List Char
/-- a string literal -/
def txt (s : String) : Text := s.toList

/-- the two printers of `f64` in Rust's core library: `{}` and `{:?}` -/
class NumFmt where
  dispF : F64 → Text
  dbgF : F64 → Text

/-- core library: `{}` and `{:?}` of an unsigned integer, decimal digits -/
def decN (n : ℕ) : Text :=
  if n < 10 then [Nat.digitChar n] else decN (n / 10) ++ [Nat.digitChar (n % 10)]
decreasing_by exact Nat.div_lt_self (by omega) (by decide)
/-- core library: `{}` and `{:?}` of a signed integer -/
def decI (z : ℤ) : Text := if z < 0 then '-' :: decN z.natAbs else decN z.natAbs

/-- core library: comma-separated sequence -/
def commas : List Text → Text
  | [] => []
  | [t] => t
  | t :: ts => t ++ txt ", " ++ commas ts
/-- core library: `{:?}` of a `Vec`, slice or array whose elements print as given -/
def dbgList (ts : List Text) : Text := txt "[" ++ commas ts ++ txt "]"
/-- `write!(f, "Name({}, {})", ..)` -/
def call (name : String) (args : List Text) : Text := txt name ++ txt "(" ++ commas args ++ txt ")"

section
variable [NumFmt]
open NumFmt
/-- src/params/mod.rs:79-83 (`param!`: a parameter prints as the value it wraps; used by every `fmt` below), src/probability.rs:155 -/
def Probability.fmt (p : Probability) : Text := dispF p.val
/-- src/probability.rs:14-16 `InvalidProbabilityError`: `Value {} doesn't lie in the range [0.0, 1.0].` -/
def invalidProbabilityText (v : F64) : Text := txt "Value " ++ dispF v ++ txt " doesn't lie in the range [0.0, 1.0]."
/-- src/probability.rs:309-311 `InvalidSimplexError`: `Probabilities {:?} do not sum to 1.` -/
def invalidSimplexText (ps : List F64) : Text := txt "Probabilities " ++ dbgList (ps.map dbgF) ++ txt " do not sum to 1."
/-- derived `Debug` of the tuple struct, src/probability.rs:314-320 -/
def SimplexVector.dbg (s : SimplexVector) : Text := call "SimplexVector" [dbgList (s.ps.map dbgF)]

/-- src/univariate/bernoulli.rs:181 -/
def Bernoulli.fmt (d : Bernoulli) : Text := call "Ber" [d.p.fmt]
/-- src/univariate/beta.rs:208-212 -/
def BetaDist.fmt (d : BetaDist) : Text := call "Beta" [dispF d.alpha, dispF d.beta]
/-- src/univariate/beta_binomial.rs:136-140 -/
def BetaBinomial.fmt (d : BetaBinomial) : Text := call "BB" [decN d.n, dispF d.alpha, dispF d.beta]
/-- src/univariate/beta_prime.rs:147-151 -/
def BetaPrime.fmt (d : BetaPrime) : Text := call "BetaPrime" [dispF d.alpha, dispF d.beta]
/-- src/univariate/binomial.rs:176-180 -/
def Binomial.fmt (d : Binomial) : Text := call "Bin" [decN d.n, d.p.fmt]
/-- src/univariate/cauchy.rs:115-119 -/
def Cauchy.fmt (d : Cauchy) : Text := call "Cauchy" [dispF d.x0, dispF d.gamma]
/-- src/univariate/chi.rs:127 -/
def Chi.fmt (d : Chi) : Text := call "Chi" [decN d.k]
/-- src/univariate/chi_sq.rs:120 -/
def ChiSq.fmt (d : ChiSq) : Text := call "ChiSq" [decN d.k]
/-- src/univariate/cosine.rs:103-107 -/
def Cosine.fmt (d : Cosine) : Text := call "Cosine" [dispF d.mu, dispF d.s]
/-- src/univariate/erlang.rs:101-105 -/
def Erlang.fmt (d : Erlang) : Text := call "Erlang" [decN d.k, dispF d.lambda]
/-- src/univariate/exponential.rs:109 -/
def Exponential.fmt (d : Exponential) : Text := call "Exp" [dispF d.lambda]
/-- src/univariate/f_dist.rs:171-173 -/
def FDist.fmt (d : FDist) : Text := call "F" [decN d.d1, decN d.d2]
/-- src/univariate/frechet.rs:162-164 -/
def Frechet.fmt (d : Frechet) : Text := call "Frechet" [dispF d.alpha]
/-- src/univariate/gamma.rs:194-198 -/
def Gamma.fmt (d : Gamma) : Text := call "Gamma" [dispF d.alpha, dispF d.beta]
/-- src/univariate/geometric.rs:107-109 -/
def Geometric.fmt (d : Geometric) : Text := call "Geometric" [d.p.fmt]
/-- src/univariate/gev.rs:188-192 -/
def GeneralisedExtremeValue.fmt (d : GeneralisedExtremeValue) : Text := call "GEV" [dispF d.mu, dispF d.sigma, dispF d.zeta]
/-- src/univariate/gpd.rs:132-136 -/
def GeneralisedPareto.fmt (d : GeneralisedPareto) : Text := call "GPD" [dispF d.mu, dispF d.sigma, dispF d.zeta]
/-- src/univariate/gumbel.rs:124-128 -/
def Gumbel.fmt (d : Gumbel) : Text := call "Gumbel" [dispF d.mu, dispF d.beta]
/-- src/univariate/inverse_gamma.rs:127-131 -/
def InvGamma.fmt (d : InvGamma) : Text := call "Inv-Gamma" [dispF d.alpha, dispF d.beta]
/-- src/univariate/inverse_normal.rs:155-159 -/
def InvNormal.fmt (d : InvNormal) : Text := call "IG" [dispF d.mu, dispF d.lambda]
/-- src/univariate/kumaraswamy.rs:126-130 -/
def Kumaraswamy.fmt (d : Kumaraswamy) : Text := call "Kumaraswamy" [dispF d.a, dispF d.b]
/-- src/univariate/laplace.rs:106-110 -/
def Laplace.fmt (d : Laplace) : Text := call "Laplace" [dispF d.mu, dispF d.b]
/-- src/univariate/levy.rs:112-116 -/
def Levy.fmt (d : Levy) : Text := call "Levy" [dispF d.mu, dispF d.c]
/-- src/univariate/logistic.rs:97-101 -/
def Logistic.fmt (d : Logistic) : Text := call "Logistic" [dispF d.mu, dispF d.s]
/-- src/univariate/pareto.rs:154-158 -/
def Pareto.fmt (d : Pareto) : Text := call "Pareto" [dispF d.xm, dispF d.alpha]
/-- src/univariate/poisson.rs:159-161 -/
def Poisson.fmt (d : Poisson) : Text := call "Poi" [dispF d.lambda]
/-- src/univariate/rayleigh.rs:109-111 -/
def Rayleigh.fmt (d : Rayleigh) : Text := call "Rayleigh" [dispF d.sigma]
/-- src/univariate/student_t.rs:144-146 -/
def StudentT.fmt (d : StudentT) : Text := call "StudentT" [dispF d.nu]
/-- src/normal/univariate.rs:231-233 (`variance()` is the stored `Sigma`) -/
def UvNormal.fmt (d : UvNormal) : Text := call "N" [dispF d.mu, dispF d.variance]
/-- src/univariate/weibull.rs:175-179 -/
def Weibull.fmt (d : Weibull) : Text := call "Weibull" [dispF d.lambda, dispF d.k]
/-- src/univariate/degenerate.rs:167-169 at `f64` -/
def DegenerateF.fmt (d : DegenerateF) : Text := txt "δ(x - " ++ dispF d.k ++ txt ")"
/-- src/univariate/degenerate.rs:167-169 at `i64` -/
def DegenerateI.fmt (d : DegenerateI) : Text := txt "δ(x - " ++ decI d.k ++ txt ")"
/-- src/univariate/categorical.rs:107 -/
def Categorical.fmt (d : Categorical) : Text := call "Cat" [d.ps.dbg]
/-- src/multivariate/dirichlet.rs:138 -/
def Dirichlet.fmt {n : ℕ} (d : Dirichlet n) : Text := call "Dir" [dbgList ((List.ofFn d.alphas).map dbgF)]
/-- src/multivariate/multinomial.rs:167-169 -/
def Multinomial.fmt {N : ℕ} (d : Multinomial N) : Text :=
  txt "Mult(" ++ decN d.n ++ txt "; " ++ SimplexVector.dbg ⟨List.ofFn d.ps⟩ ++ txt ")"
/-- src/multivariate/lognormal.rs:165-173 at `S = f64` (isotropic; the only instance whose covariance is `Display`) -/
def MvLogN.fmtIso {n : ℕ} (d : MvLogN (IsoNormal n)) : Text :=
  call "LogNormal" [dbgList ((List.ofFn d.normal.mu).map dbgF), dispF d.normal.Sigma]
/-- src/univariate/uniform.rs:302-306: `get_params!` adds `lb + width` in i64 arithmetic -/
def UniformI.fmt (pr : Profile) (d : UniformI) : Except Panic Text := do
  let ub ← i64chk pr (d.lb + d.width)
  .ok (txt "U{" ++ commas [decI d.lb, decI ub] ++ txt "}")

variable [FP]
/-- src/univariate/arcsine.rs:117-121, `get_params!` :33-37 -/
noncomputable def Arcsine.fmt (d : Arcsine) : Text := call "Arcsine" [dispF d.a, dispF d.b]
/-- src/univariate/uniform.rs:184-188 -/
noncomputable def UniformF.fmt (d : UniformF) : Text := call "U" [dispF d.lb, dispF (d.lb + d.width)]
/-- src/univariate/triangular.rs:167-171: prints `a, b, c` -/
noncomputable def Triangular.fmt (d : Triangular) : Text := call "Triangular" [dispF d.a, dispF d.b, dispF d.c]
/-- src/univariate/lognormal.rs:142-144 -/
noncomputable def LogNormal.fmt (d : LogNormal) : Text := call "LogNormal" [dispF d.normal.mu, dispF d.variance]
/-- src/univariate/folded_normal.rs:138-140 -/
noncomputable def FoldedNormal.fmt (d : FoldedNormal) : Text := call "FN" [dispF d.mu, dispF d.variance]
/-- src/normal/paired.rs:187-189 -/
noncomputable def PairedNormal.fmt (d : PairedNormal) : Text :=
  call "N" [dbgList ((List.ofFn d.mean).map dbgF), dbgList ((List.ofFn d.covariance).map fun row => dbgList ((List.ofFn row).map dbgF))]
/-- src/normal/bivariate.rs:179-181 -/
noncomputable def BvNormal.fmt (d : BvNormal) : Text :=
  call "N" [dbgList ((List.ofFn d.mean).map dbgF), dbgList ((List.ofFn d.covariance).map fun row => dbgList ((List.ofFn row).map dbgF))]
end

section
variable [NumFmt]
open NumFmt
/-- `{:?}` of a value: f64, i64, usize, and `Vec` / array of such -/
def Ty.dbg : (t : Ty) → t.Val → Text
  | .sc .f64, v => dbgF v
  | .sc .i64, v => decI v
  | .sc .usize, v => decN v
  | .vec t, v => dbgList (List.map (fun x => Ty.dbg t x) v)
  | .arr n t, v => dbgList ((List.ofFn (n := n) v).map (fun x => Ty.dbg t x))

/-- `Display` of every constraint, src/params/constraints.rs: names :132-138 (`impl_display!`), `All` :161, `Not` :235,
`Or` :246, `And` :271 (prints `||` too), `Equal` :296, `LessThan` :307, `LessThanOrEqual` :323-325, `GreaterThan` :341,
`GreaterThanOrEqual` :357-359, `Interval` :373-375, `Empty` :396, `Square` :411; a `Box` prints its content -/
def Cst.fmt : {t : Ty} → Cst t → Text
  | _, @Cst.equal s b => call "Equal" [(Ty.sc s).dbg b]
  | _, @Cst.lessThan s b => call "LessThan" [(Ty.sc s).dbg b]
  | _, .negative => txt "Negative"
  | _, @Cst.lessThanOrEqual s b => call "LessThanOrEqual" [(Ty.sc s).dbg b]
  | _, .nonPositive => txt "NonPositive"
  | _, @Cst.greaterThan s b => call "GreaterThan" [(Ty.sc s).dbg b]
  | _, .positive => txt "Positive"
  | _, @Cst.greaterThanOrEqual s b => call "GreaterThanOrEqual" [(Ty.sc s).dbg b]
  | _, @Cst.interval s lb ub => txt "[" ++ commas [(Ty.sc s).dbg lb, (Ty.sc s).dbg ub] ++ txt "]"
  | _, .nonNegative => txt "NonNegative"
  | _, .naturalI => txt "Natural"
  | _, .naturalU => txt "Natural"
  | _, .not c => call "Not" [c.fmt]
  | _, .or c1 c2 => call "Or" [c1.fmt ++ txt " || " ++ c2.fmt]
  | _, .and c1 c2 => call "And" [c1.fmt ++ txt " || " ++ c2.fmt]
  | _, .box c => c.fmt
  | _, .allSc c => call "All" [c.fmt]
  | _, .allVec c => call "All" [c.fmt]
  | _, .allArr c => call "All" [c.fmt]
  | _, .emptyArr => txt "Empty"
  | _, .emptyVec => txt "Empty"
  | _, .square => txt "Square"

/-- src/params/constraints.rs:90-107 `Display for UnsatisfiedConstraintError`; `quote` is core's `{:?}` of a string -/
def UCE.fmt (quote : String → Text) {t : Ty} (e : UCE t) : Text :=
  match e.target with
  | some target => txt "Constraint " ++ e.constraint.fmt ++ txt " on " ++ quote target ++ txt " is unsatisfied for value " ++
      t.dbg e.value ++ txt "."
  | none => txt "Constraint " ++ e.constraint.fmt ++ txt " is unsatisfied for value " ++ t.dbg e.value ++ txt "."
end
end Rstat
