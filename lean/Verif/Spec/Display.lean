import Verif.Model.Display
import Verif.Float.Binary64

/-! Vocabulary for the properties about printed text: what Rust's number printers are assumed to do, and the families with
their parameters. -/
namespace Rstat

/-- the 64-bit values: an `F64` that some bit pattern denotes -/
def F64.Representable : F64 → Prop
  | .fin r => B64.rnd r = r ∧ |r| < 2 ^ 1024
  | _ => True

/-- characters the crate uses as punctuation around numbers -/
def punct : List Char := [',', '(', ')', '[', ']', '{', '}', ' ', ';', '|', '"']
/-- a non-empty text without punctuation -/
def Plain (t : Text) : Prop := t ≠ [] ∧ ∀ c ∈ t, c ∉ punct

/-- contract of core's `f64` printers: distinct values print differently (shortest round-trip digits, `-0`, `inf`, `NaN`)
and a printed number contains no punctuation -/
class NumFmt.Lawful [NumFmt] : Prop where
  disp_inj : ∀ x y : F64, x.Representable → y.Representable → NumFmt.dispF x = NumFmt.dispF y → x = y
  disp_plain : ∀ x : F64, Plain (NumFmt.dispF x)
  dbg_inj : ∀ x y : F64, x.Representable → y.Representable → NumFmt.dbgF x = NumFmt.dbgF y → x = y
  dbg_plain : ∀ x : F64, Plain (NumFmt.dbgF x)

/-- contract of core's `{:?}` of a string: quoted and escaped, hence self-delimiting -/
def SelfDelimiting (quote : String → Text) : Prop :=
  ∀ s s' (r r' : Text), quote s ++ r = quote s' ++ r' → s = s' ∧ r = r'

/-- every float inside a value is a genuine 64-bit value -/
def Ty.Rep : (t : Ty) → t.Val → Prop
  | .sc .f64, v => F64.Representable v
  | .sc .i64, _ => True
  | .sc .usize, _ => True
  | .vec t, v => ∀ x ∈ (v : List t.Val), Ty.Rep t x
  | .arr n t, v => ∀ i : Fin n, Ty.Rep t (v i)

/-- every float inside a constraint is a genuine 64-bit value -/
def Cst.Rep : {t : Ty} → Cst t → Prop
  | _, @Cst.equal s b => (Ty.sc s).Rep b
  | _, @Cst.lessThan s b => (Ty.sc s).Rep b
  | _, @Cst.lessThanOrEqual s b => (Ty.sc s).Rep b
  | _, @Cst.greaterThan s b => (Ty.sc s).Rep b
  | _, @Cst.greaterThanOrEqual s b => (Ty.sc s).Rep b
  | _, @Cst.interval s lb ub => (Ty.sc s).Rep lb ∧ (Ty.sc s).Rep ub
  | _, .not c => c.Rep
  | _, .or c1 c2 => c1.Rep ∧ c2.Rep
  | _, .and c1 c2 => c1.Rep ∧ c2.Rep
  | _, .box c => c.Rep
  | _, .allSc c => c.Rep
  | _, .allVec c => c.Rep
  | _, .allArr c => c.Rep
  | _, _ => True

/-- a parameter -/
inductive Num where
  | f (x : F64)
  | n (k : ℕ)

/-- every parameter is a genuine 64-bit value -/
def Num.Ok : Num → Prop
  | .f x => x.Representable
  | .n _ => True

/-- the families whose text shows their parameters directly -/
inductive Family where
  | bernoulli
  | beta
  | betaBinomial
  | betaPrime
  | binomial
  | cauchy
  | chi
  | chiSq
  | cosine
  | erlang
  | exponential
  | fDist
  | frechet
  | gamma
  | geometric
  | gev
  | gpd
  | gumbel
  | invGamma
  | invNormal
  | kumaraswamy
  | laplace
  | levy
  | logistic
  | pareto
  | poisson
  | rayleigh
  | studentT
  | uvNormal
  | weibull

/-- a distribution of any such family -/
inductive AnyDist where
  | bernoulli (d : Bernoulli)
  | beta (d : BetaDist)
  | betaBinomial (d : BetaBinomial)
  | betaPrime (d : BetaPrime)
  | binomial (d : Binomial)
  | cauchy (d : Cauchy)
  | chi (d : Chi)
  | chiSq (d : ChiSq)
  | cosine (d : Cosine)
  | erlang (d : Erlang)
  | exponential (d : Exponential)
  | fDist (d : FDist)
  | frechet (d : Frechet)
  | gamma (d : Gamma)
  | geometric (d : Geometric)
  | gev (d : GeneralisedExtremeValue)
  | gpd (d : GeneralisedPareto)
  | gumbel (d : Gumbel)
  | invGamma (d : InvGamma)
  | invNormal (d : InvNormal)
  | kumaraswamy (d : Kumaraswamy)
  | laplace (d : Laplace)
  | levy (d : Levy)
  | logistic (d : Logistic)
  | pareto (d : Pareto)
  | poisson (d : Poisson)
  | rayleigh (d : Rayleigh)
  | studentT (d : StudentT)
  | uvNormal (d : UvNormal)
  | weibull (d : Weibull)

namespace AnyDist
/-- its family -/
def family : AnyDist → Family
  | .bernoulli _ => .bernoulli
  | .beta _ => .beta
  | .betaBinomial _ => .betaBinomial
  | .betaPrime _ => .betaPrime
  | .binomial _ => .binomial
  | .cauchy _ => .cauchy
  | .chi _ => .chi
  | .chiSq _ => .chiSq
  | .cosine _ => .cosine
  | .erlang _ => .erlang
  | .exponential _ => .exponential
  | .fDist _ => .fDist
  | .frechet _ => .frechet
  | .gamma _ => .gamma
  | .geometric _ => .geometric
  | .gev _ => .gev
  | .gpd _ => .gpd
  | .gumbel _ => .gumbel
  | .invGamma _ => .invGamma
  | .invNormal _ => .invNormal
  | .kumaraswamy _ => .kumaraswamy
  | .laplace _ => .laplace
  | .levy _ => .levy
  | .logistic _ => .logistic
  | .pareto _ => .pareto
  | .poisson _ => .poisson
  | .rayleigh _ => .rayleigh
  | .studentT _ => .studentT
  | .uvNormal _ => .uvNormal
  | .weibull _ => .weibull

/-- its parameters, in the order of the constructor -/
def params : AnyDist → List Num
  | .bernoulli d => [.f d.p.val]
  | .beta d => [.f d.alpha, .f d.beta]
  | .betaBinomial d => [.n d.n, .f d.alpha, .f d.beta]
  | .betaPrime d => [.f d.alpha, .f d.beta]
  | .binomial d => [.n d.n, .f d.p.val]
  | .cauchy d => [.f d.x0, .f d.gamma]
  | .chi d => [.n d.k]
  | .chiSq d => [.n d.k]
  | .cosine d => [.f d.mu, .f d.s]
  | .erlang d => [.n d.k, .f d.lambda]
  | .exponential d => [.f d.lambda]
  | .fDist d => [.n d.d1, .n d.d2]
  | .frechet d => [.f d.alpha]
  | .gamma d => [.f d.alpha, .f d.beta]
  | .geometric d => [.f d.p.val]
  | .gev d => [.f d.mu, .f d.sigma, .f d.zeta]
  | .gpd d => [.f d.mu, .f d.sigma, .f d.zeta]
  | .gumbel d => [.f d.mu, .f d.beta]
  | .invGamma d => [.f d.alpha, .f d.beta]
  | .invNormal d => [.f d.mu, .f d.lambda]
  | .kumaraswamy d => [.f d.a, .f d.b]
  | .laplace d => [.f d.mu, .f d.b]
  | .levy d => [.f d.mu, .f d.c]
  | .logistic d => [.f d.mu, .f d.s]
  | .pareto d => [.f d.xm, .f d.alpha]
  | .poisson d => [.f d.lambda]
  | .rayleigh d => [.f d.sigma]
  | .studentT d => [.f d.nu]
  | .uvNormal d => [.f d.mu, .f d.Sigma]
  | .weibull d => [.f d.lambda, .f d.k]

/-- `to_string()` -/
def text [NumFmt] : AnyDist → Text
  | .bernoulli d => d.fmt
  | .beta d => d.fmt
  | .betaBinomial d => d.fmt
  | .betaPrime d => d.fmt
  | .binomial d => d.fmt
  | .cauchy d => d.fmt
  | .chi d => d.fmt
  | .chiSq d => d.fmt
  | .cosine d => d.fmt
  | .erlang d => d.fmt
  | .exponential d => d.fmt
  | .fDist d => d.fmt
  | .frechet d => d.fmt
  | .gamma d => d.fmt
  | .geometric d => d.fmt
  | .gev d => d.fmt
  | .gpd d => d.fmt
  | .gumbel d => d.fmt
  | .invGamma d => d.fmt
  | .invNormal d => d.fmt
  | .kumaraswamy d => d.fmt
  | .laplace d => d.fmt
  | .levy d => d.fmt
  | .logistic d => d.fmt
  | .pareto d => d.fmt
  | .poisson d => d.fmt
  | .rayleigh d => d.fmt
  | .studentT d => d.fmt
  | .uvNormal d => d.fmt
  | .weibull d => d.fmt
end AnyDist
/-- the name each family prints -/
def Family.name : Family → String
  | .bernoulli => "Ber"
  | .beta => "Beta"
  | .betaBinomial => "BB"
  | .betaPrime => "BetaPrime"
  | .binomial => "Bin"
  | .cauchy => "Cauchy"
  | .chi => "Chi"
  | .chiSq => "ChiSq"
  | .cosine => "Cosine"
  | .erlang => "Erlang"
  | .exponential => "Exp"
  | .fDist => "F"
  | .frechet => "Frechet"
  | .gamma => "Gamma"
  | .geometric => "Geometric"
  | .gev => "GEV"
  | .gpd => "GPD"
  | .gumbel => "Gumbel"
  | .invGamma => "Inv-Gamma"
  | .invNormal => "IG"
  | .kumaraswamy => "Kumaraswamy"
  | .laplace => "Laplace"
  | .levy => "Levy"
  | .logistic => "Logistic"
  | .pareto => "Pareto"
  | .poisson => "Poi"
  | .rayleigh => "Rayleigh"
  | .studentT => "StudentT"
  | .uvNormal => "N"
  | .weibull => "Weibull"

/-- how a parameter prints -/
def Num.shown [NumFmt] : Num → Text
  | .f x => NumFmt.dispF x
  | .n k => decN k
end Rstat
