import Verif.Model.Dist.Params

/-! `new_unchecked` and `Default` of the distributions (those not already modelled with the distribution). `Params::new_unchecked` of the
`params!` macro (src/params/mod.rs:144-148) stores the arguments in the order of the fields. -/
namespace Rstat

/-- src/univariate/arcsine.rs:36 `new_unchecked` -/
def Arcsine.newUnchecked (a : F64) (b : F64) : Arcsine := ⟨a, b⟩
/-- src/univariate/cauchy.rs:35 `new_unchecked` -/
def Cauchy.newUnchecked (a : F64) (b : F64) : Cauchy := ⟨a, b⟩
/-- src/univariate/chi.rs:34 `new_unchecked` -/
def Chi.newUnchecked (a : ℕ) : Chi := ⟨a⟩
/-- src/univariate/cosine.rs:34 `new_unchecked` -/
def Cosine.newUnchecked (a : F64) (b : F64) : Cosine := ⟨a, b⟩
/-- src/univariate/erlang.rs:35 `new_unchecked` -/
def Erlang.newUnchecked (a : ℕ) (b : F64) : Erlang := ⟨a, b⟩
/-- src/univariate/exponential.rs:34 `new_unchecked` -/
def Exponential.newUnchecked (a : F64) : Exponential := ⟨a⟩
/-- src/univariate/f_dist.rs:35 `new_unchecked` -/
def FDist.newUnchecked (a : ℕ) (b : ℕ) : FDist := ⟨a, b⟩
/-- src/univariate/frechet.rs:32 `new_unchecked` -/
def Frechet.newUnchecked (a : F64) : Frechet := ⟨a⟩
/-- src/univariate/gev.rs:38 `new_unchecked` -/
def GeneralisedExtremeValue.newUnchecked (a : F64) (b : F64) (c : F64) : GeneralisedExtremeValue := ⟨a, b, c⟩
/-- src/univariate/gpd.rs:37 `new_unchecked` -/
def GeneralisedPareto.newUnchecked (a : F64) (b : F64) (c : F64) : GeneralisedPareto := ⟨a, b, c⟩
/-- src/univariate/gumbel.rs:34 `new_unchecked` -/
def Gumbel.newUnchecked (a : F64) (b : F64) : Gumbel := ⟨a, b⟩
/-- src/univariate/inverse_gamma.rs:33 `new_unchecked` -/
def InvGamma.newUnchecked (a : F64) (b : F64) : InvGamma := ⟨a, b⟩
/-- src/univariate/laplace.rs:34 `new_unchecked` -/
def Laplace.newUnchecked (a : F64) (b : F64) : Laplace := ⟨a, b⟩
/-- src/univariate/logistic.rs:34 `new_unchecked` -/
def Logistic.newUnchecked (a : F64) (b : F64) : Logistic := ⟨a, b⟩
/-- src/univariate/pareto.rs:33 `new_unchecked` -/
def Pareto.newUnchecked (a : F64) (b : F64) : Pareto := ⟨a, b⟩
/-- src/univariate/poisson.rs:42 `new_unchecked` -/
def Poisson.newUnchecked (a : F64) : Poisson := ⟨a⟩
/-- src/univariate/rayleigh.rs:41 `new_unchecked` -/
def Rayleigh.newUnchecked (a : F64) : Rayleigh := ⟨a⟩
/-- src/univariate/student_t.rs:33 `new_unchecked` -/
def StudentT.newUnchecked (a : F64) : StudentT := ⟨a⟩
/-- src/univariate/triangular.rs:51 `new_unchecked` -/
def Triangular.newUnchecked (a : F64) (b : F64) (c : F64) : Triangular := ⟨a, b, c⟩
/-- src/univariate/beta_prime.rs:33 `new_unchecked` -/
def BetaPrime.newUnchecked (a : F64) (b : F64) : BetaPrime := ⟨a, b⟩
/-- src/univariate/uniform.rs:85-87 `new_unchecked` (via `From<Params>`) -/
noncomputable def UniformF.newUnchecked [FP] (lb width : F64) : UniformF := UniformF.fromParams lb width
/-- src/univariate/uniform.rs:200-202 `new_unchecked` (via `From<Params>`): `width as i64` -/
noncomputable def UniformI.newUnchecked [FP] (pr : Profile) (lb : ℤ) (width : ℕ) : Except Panic UniformI :=
  UniformI.ofParams pr (lb, i64wrap width)
/-- src/univariate/bernoulli.rs:42 `new_unchecked` (via `From<Params>`) -/
noncomputable def Bernoulli.newUnchecked [FP] (p : F64) : Bernoulli := Bernoulli.fromParams (Probability.newUnchecked p)
/-- src/univariate/geometric.rs:29 `new_unchecked` (via `From<Params>`) -/
noncomputable def Geometric.newUnchecked [FP] (p : F64) : Geometric := Geometric.fromParams (Probability.newUnchecked p)
/-- src/univariate/beta_binomial.rs:44-46 `new_unchecked` (via `From<Params>`) -/
noncomputable def BetaBinomial.newUnchecked [FP] (n : ℕ) (alpha beta : F64) : BetaBinomial := BetaBinomial.fromParams n alpha beta
/-- src/normal/paired.rs:58-60 `isotropic_unchecked` -/
def PairedNormal.isotropicUnchecked (mu : Fin 2 → F64) (s2 : F64) : PairedNormal := PairedNormal.newUnchecked mu ![s2, s2]
/-- src/univariate/kumaraswamy.rs:38-40 `Default` -/
noncomputable def Kumaraswamy.default [FP] : Kumaraswamy := ⟨1, 1⟩
/-- src/univariate/gumbel.rs:44-46 `Default` -/
noncomputable def Gumbel.default [FP] : Gumbel := Gumbel.newUnchecked 0 1
/-- src/univariate/inverse_gamma.rs:38-40 `Default` -/
noncomputable def InvGamma.default [FP] : InvGamma := InvGamma.newUnchecked 1 1
/-- src/univariate/frechet.rs:35-37 `Default` -/
noncomputable def Frechet.default [FP] : Frechet := Frechet.newUnchecked 1
/-- src/univariate/folded_normal.rs:52-54 `Default` -/
noncomputable def FoldedNormal.default [FP] : FoldedNormal := FoldedNormal.standard
/-- src/normal/bivariate.rs:101-103 `Default` -/
noncomputable def BvNormal.default [FP] : BvNormal := BvNormal.standard
/-- src/normal/paired.rs:75-77 `Default` -/
noncomputable def PairedNormal.default [FP] : PairedNormal := PairedNormal.standard
/-- src/univariate/degenerate.rs:35-39 `Default` of `Degenerate<i64>` -/
def DegenerateI.default : DegenerateI := DegenerateI.new 0
end Rstat
