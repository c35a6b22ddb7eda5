import Verif.Model.Serde
import Verif.Model.Dist.Params

/-! The serialisable parameter types of /repo (feature `serde`), one `Codec` each: the shape from which the derived code is generated and the
correspondence between its values and the representation of the parameters used by the other files (tuples; `id` where they are the same). -/
namespace Rstat

/-- A serialisable type: its shape, and its values as values of that shape -/
structure Codec (P : Type) where
  t : STy
  enc : P → t.Val
  dec : t.Val → P

/-- the derived `Serialize` -/
def Codec.ser {P : Type} (c : Codec P) (p : P) : Data := c.t.ser (c.enc p)
/-- the derived `Deserialize` -/
noncomputable def Codec.de [FP] {P : Type} (c : Codec P) (d : Data) : Option P := (c.t.de d).map c.dec

/-- src/univariate/arcsine.rs:13-16 `Params` -/
def Arcsine.codec : Codec (F64 × F64) := ⟨.struct (.cons "a" (.newtype .f64) (.one "w" (.newtype .f64))), id, id⟩
/-- src/univariate/cauchy.rs:14-20 `Params` -/
def Cauchy.codec : Codec (F64 × F64) := ⟨.struct (.cons "x0" (.newtype .f64) (.one "gamma" (.newtype .f64))), id, id⟩
/-- src/univariate/cosine.rs:13-19 `Params` -/
def Cosine.codec : Codec (F64 × F64) := ⟨.struct (.cons "mu" (.newtype .f64) (.one "s" (.newtype .f64))), id, id⟩
/-- src/univariate/exponential.rs:14-19 `Params` -/
def Exponential.codec : Codec (F64) := ⟨.struct (.one "lambda" (.newtype .f64)), id, id⟩
/-- src/univariate/frechet.rs:15-19 `Params` -/
def Frechet.codec : Codec (F64) := ⟨.struct (.one "alpha" (.newtype .f64)), id, id⟩
/-- src/univariate/gev.rs:16-23 `Params` -/
def GeneralisedExtremeValue.codec : Codec (F64 × F64 × F64) := ⟨.struct (.cons "mu" (.newtype .f64) (.cons "sigma" (.newtype .f64) (.one "zeta" (.newtype .f64)))), id, id⟩
/-- src/univariate/gpd.rs:15-22 `Params` -/
def GeneralisedPareto.codec : Codec (F64 × F64 × F64) := ⟨.struct (.cons "mu" (.newtype .f64) (.cons "sigma" (.newtype .f64) (.one "zeta" (.newtype .f64)))), id, id⟩
/-- src/univariate/gumbel.rs:13-19 `Params` -/
def Gumbel.codec : Codec (F64 × F64) := ⟨.struct (.cons "mu" (.newtype .f64) (.one "beta" (.newtype .f64))), id, id⟩
/-- src/univariate/kumaraswamy.rs:15-18 `Params` -/
def Kumaraswamy.codec : Codec (F64 × F64) := ⟨.struct (.cons "a" (.newtype .f64) (.one "b" (.newtype .f64))), id, id⟩
/-- src/univariate/laplace.rs:13-19 `Params` -/
def Laplace.codec : Codec (F64 × F64) := ⟨.struct (.cons "mu" (.newtype .f64) (.one "b" (.newtype .f64))), id, id⟩
/-- src/univariate/logistic.rs:13-19 `Params` -/
def Logistic.codec : Codec (F64 × F64) := ⟨.struct (.cons "mu" (.newtype .f64) (.one "s" (.newtype .f64))), id, id⟩
/-- src/univariate/pareto.rs:12-18 `Params` -/
def Pareto.codec : Codec (F64 × F64) := ⟨.struct (.cons "x_m" (.newtype .f64) (.one "alpha" (.newtype .f64))), id, id⟩
/-- src/univariate/rayleigh.rs:23-28 `Params` -/
def Rayleigh.codec : Codec (F64) := ⟨.struct (.one "sigma" (.newtype .f64)), id, id⟩
/-- src/univariate/triangular.rs:15-22 `Params` -/
def Triangular.codec : Codec (F64 × F64 × F64) := ⟨.struct (.cons "a" (.newtype .f64) (.cons "a2c" (.newtype .f64) (.one "c2b" (.newtype .f64)))), id, id⟩
/-- src/univariate/weibull.rs:15-21 `Params` -/
def Weibull.codec : Codec (F64 × F64) := ⟨.struct (.cons "lambda" (.newtype .f64) (.one "k" (.newtype .f64))), id, id⟩
/-- src/univariate/poisson.rs:18-23 `Params` -/
def Poisson.codec : Codec (F64) := ⟨.struct (.one "lambda" (.newtype .f64)), id, id⟩
/-- src/univariate/gamma.rs:16-22 `Params` -/
def Gamma.codec : Codec (F64 × F64) := ⟨.struct (.cons "alpha" (.newtype .f64) (.one "beta" (.newtype .f64))), id, id⟩
/-- src/univariate/inverse_gamma.rs:12-18 `Params` -/
def InvGamma.codec : Codec (F64 × F64) := ⟨.struct (.cons "alpha" (.newtype .f64) (.one "beta" (.newtype .f64))), id, id⟩
/-- src/univariate/beta.rs:15-18 `Params` -/
def BetaDist.codec : Codec (F64 × F64) := ⟨.struct (.cons "alpha" (.newtype .f64) (.one "beta" (.newtype .f64))), id, id⟩
/-- src/univariate/beta_prime.rs:12-18 `Params` -/
def BetaPrime.codec : Codec (F64 × F64) := ⟨.struct (.cons "alpha" (.newtype .f64) (.one "beta" (.newtype .f64))), id, id⟩
/-- src/univariate/student_t.rs:15-20 `Params` -/
def StudentT.codec : Codec (F64) := ⟨.struct (.one "nu" (.newtype .f64)), id, id⟩
/-- src/univariate/levy.rs:13-19 `Params` -/
def Levy.codec : Codec (F64 × F64) := ⟨.struct (.cons "mu" (.newtype .f64) (.one "c" (.newtype .f64))), id, id⟩
/-- src/univariate/folded_normal.rs:13-19 `Params` -/
def FoldedNormal.codec : Codec (F64 × F64) := ⟨.struct (.cons "mu" (.newtype .f64) (.one "sigma" (.newtype .f64))), id, id⟩
/-- src/univariate/chi_sq.rs:16-21 `Params` -/
def ChiSq.codec : Codec (ℕ) := ⟨.struct (.one "k" (.newtype .usize)), id, id⟩
/-- src/univariate/chi.rs:16-21 `Params` -/
def Chi.codec : Codec (ℕ) := ⟨.struct (.one "k" (.newtype .usize)), id, id⟩
/-- src/univariate/erlang.rs:14-20 `Params` -/
def Erlang.codec : Codec (ℕ × F64) := ⟨.struct (.cons "k" (.newtype .usize) (.one "lambda" (.newtype .f64))), id, id⟩
/-- src/univariate/f_dist.rs:14-20 `Params` -/
def FDist.codec : Codec (ℕ × ℕ) := ⟨.struct (.cons "d1" (.newtype .usize) (.one "d2" (.newtype .usize))), id, id⟩
/-- src/univariate/uniform.rs:26-29 `Params` -/
def UniformF.codec : Codec (F64 × F64) := ⟨.struct (.cons "lb" (.newtype .f64) (.one "width" (.newtype .f64))), id, id⟩
/-- src/normal/mod.rs:181-187 `Params<f64, f64>` -/
def UvNormal.codec : Codec (UvNormalParams) := ⟨.struct (.cons "mu" (.newtype .f64) (.one "Sigma" (.newtype .f64))), fun p => (p.mu, p.Sigma), fun v => ⟨v.1, v.2⟩⟩
/-- src/normal/mod.rs:181-187 `Params<f64, f64>` -/
def LogNormal.codec : Codec (UvNormalParams) := ⟨.struct (.cons "mu" (.newtype .f64) (.one "Sigma" (.newtype .f64))), fun p => (p.mu, p.Sigma), fun v => ⟨v.1, v.2⟩⟩
/-- src/univariate/inverse_normal.rs:16-22 `Params` -/
def InvNormal.codec : Codec (F64 × F64) := ⟨.struct (.cons "mu" (.newtype .f64) (.one "lambda" (.newtype .f64))), id, id⟩
/-- src/univariate/beta_binomial.rs:16-23 `Params` -/
def BetaBinomial.codec : Codec (ℕ × F64 × F64) := ⟨.struct (.cons "n" (.newtype .usize) (.cons "alpha" (.newtype .f64) (.one "beta" (.newtype .f64)))), id, id⟩
/-- src/univariate/bernoulli.rs:14-19 `Params` -/
def Bernoulli.codec : Codec (Probability) := ⟨.struct (.one "p" (.newtype .f64)), fun p => p.val, fun v => ⟨v⟩⟩
/-- src/univariate/binomial.rs:18-24 `Params` -/
def Binomial.codec : Codec (ℕ × Probability) := ⟨.struct (.cons "n" (.newtype .usize) (.one "p" (.newtype .f64))), fun p => (p.1, p.2.val), fun v => (v.1, ⟨v.2⟩)⟩
/-- src/univariate/geometric.rs:13-18 `Params` -/
def Geometric.codec : Codec (Probability) := ⟨.struct (.one "p" (.newtype .f64)), fun p => p.val, fun v => ⟨v⟩⟩
/-- src/probability.rs:22-28 -/
def Probability.codec : Codec Probability := ⟨.newtype .f64, fun p => p.val, fun v => ⟨v⟩⟩
/-- src/probability.rs:313-326 `SimplexVector<K>`; the array goes through src/utils.rs:30-90. (A model value whose list is not of length K does
not exist in Rust.) -/
def SimplexVector.codec (K : ℕ) : Codec SimplexVector := ⟨.newtype (.arr K .f64), fun v i => v.ps.getD i .nan, fun a => ⟨List.ofFn a⟩⟩
/-- src/params/corr.rs:6-12 -/
def Corr.codec : Codec F64 := ⟨.newtype .f64, id, id⟩
/-- src/params/concentrations.rs:6-19 -/
def Concentrations.codec (n : ℕ) : Codec (Fin n → F64) := ⟨.newtype (.arr n .f64), id, id⟩
/-- src/params/mod.rs:65-71, `Loc<f64>` -/
def DegenerateF.codec : Codec F64 := ⟨.newtype .f64, id, id⟩
/-- src/params/mod.rs:65-71, `Loc<i64>` -/
def DegenerateI.codec : Codec ℤ := ⟨.newtype .i64, id, id⟩
/-- src/univariate/uniform.rs:26-29 `Params<i64>` -/
def UniformI.codec : Codec (ℤ × ℤ) := ⟨.struct (.cons "lb" (.newtype .i64) (.one "width" (.newtype .i64))), id, id⟩
/-- src/univariate/categorical.rs:12-14 `Params<N>` -/
def Categorical.codec (K : ℕ) : Codec SimplexVector :=
  ⟨.struct (.one "ps" (.newtype (.arr K .f64))), fun v i => v.ps.getD i .nan, fun a => ⟨List.ofFn a⟩⟩
/-- src/multivariate/multinomial.rs:22-25 `Params<N>` -/
def Multinomial.codec (N : ℕ) : Codec (ℕ × (Fin N → F64)) :=
  ⟨.struct (.cons "n" (.newtype .usize) (.one "ps" (.newtype (.arr N .f64)))), id, id⟩
/-- `From<Params<N>>`, src/multivariate/multinomial.rs:62-64 -/
def Multinomial.ofParams {N : ℕ} (p : ℕ × (Fin N → F64)) : Multinomial N := ⟨p.1, p.2⟩
/-- src/normal/mod.rs:181-187 at src/normal/bivariate.rs:18 `Params<[f64; 2], ([f64; 2], f64)>` -/
def BvNormal.codec : Codec BvNormal :=
  ⟨.struct (.cons "mu" (.newtype (.arr 2 .f64)) (.one "Sigma" (.newtype (.pair (.arr 2 .f64) .f64)))),
    fun d => (d.mu, d.S, d.rho), fun v => ⟨v.1, v.2.1, v.2.2⟩⟩
/-- src/normal/mod.rs:181-187 at src/normal/paired.rs:16 `Params<[f64; 2], [f64; 2]>` -/
def PairedNormal.codec : Codec PairedNormal :=
  ⟨.struct (.cons "mu" (.newtype (.arr 2 .f64)) (.one "Sigma" (.newtype (.arr 2 .f64)))), fun d => (d.mu, d.S), fun v => ⟨v.1, v.2⟩⟩
/-- src/normal/mod.rs:181-187 at `Params<[f64; N], [[f64; N]; N]>` (serde implements arrays for N ≤ 32) -/
def MvNormal.codec (n : ℕ) : Codec ((Fin n → F64) × (Fin n → Fin n → F64)) :=
  ⟨.struct (.cons "mu" (.newtype (.arr n .f64)) (.one "Sigma" (.newtype (.arr n (.arr n .f64))))), id, id⟩
/-- src/normal/mod.rs:181-187 at `Params<[f64; N], [f64; N]>` (serde implements arrays for N ≤ 32) -/
def DiagNormal.codec (n : ℕ) : Codec ((Fin n → F64) × (Fin n → F64)) :=
  ⟨.struct (.cons "mu" (.newtype (.arr n .f64)) (.one "Sigma" (.newtype (.arr n .f64)))), id, id⟩
/-- src/normal/mod.rs:181-187 at `Params<[f64; N], f64>` (serde implements arrays for N ≤ 32) -/
def IsoNormal.codec (n : ℕ) : Codec ((Fin n → F64) × F64) :=
  ⟨.struct (.cons "mu" (.newtype (.arr n .f64)) (.one "Sigma" (.newtype .f64))), id, id⟩
/-- `From<MvNormalParams<N>>`, src/normal/multivariate.rs:167-171 -/
noncomputable def MvNormal.ofParams [FP] [Lapack] {n : ℕ} (p : (Fin n → F64) × (Fin n → Fin n → F64)) : MvNormal n :=
  MvNormal.newUnchecked p.1 p.2
/-- `From<DiagonalNormalParams<N>>`, src/normal/multivariate.rs:373-377 -/
noncomputable def DiagNormal.ofParams [FP] {n : ℕ} (p : (Fin n → F64) × (Fin n → F64)) : DiagNormal n := DiagNormal.newUnchecked p.1 p.2
/-- `From<IsotropicNormalParams<N>>`, src/normal/multivariate.rs:614-618 -/
noncomputable def IsoNormal.ofParams [FP] {n : ℕ} (p : (Fin n → F64) × F64) : IsoNormal n := IsoNormal.newUnchecked p.1 p.2
/-- src/normal/mod.rs:196-202 `Grad<f64, f64>` -/
def UvNormal.gradCodec : Codec (NGrad F64 F64) := ⟨.struct (.cons "mu" .f64 (.one "Sigma" .f64)), fun g => (g.mu, g.Sigma), fun v => ⟨v.1, v.2⟩⟩
/-- src/mixture.rs:19-22 `Params<N, CP>` -/
def Mixture.codec {P : Type} (N : ℕ) (c : Codec P) : Codec (MixtureParams P) :=
  ⟨.struct (.cons "ps" (.newtype (.arr N .f64)) (.one "component_params" (.vec c.t))),
    fun m => (fun i => m.ps.ps.getD i .nan, m.componentParams.map c.enc), fun v => ⟨⟨List.ofFn v.1⟩, v.2.map c.dec⟩⟩
end Rstat
