import Verif.Model.Dist.Params

/-! Model of the `sample` methods that delegate to `rand` 0.8 / `rand_distr` 0.4 (the versions of /repo/Cargo.toml). What those crates
draw is a parameter (`RandSrc`); their argument checks (`new` returning `Err`, `gen_bool`/`Uniform::new` panicking) are modelled by
`Accepts`. The other `sample` methods are in the distribution's own model file. -/
namespace Rstat
open Classical

/-- the `rand_distr` samplers with an `f64` output that the code builds, with the constructor's arguments in order -/
inductive RealSampler where
  | exp (lambda : F64)
  | cauchy (median scale : F64)
  | pareto (scale shape : F64)
  | weibull (scale shape : F64)
  | triangular (min max mode : F64)
  | uniform (low high : F64)
  | uniformIncl (low high : F64)
  | gamma (shape scale : F64)
  | beta (alpha beta : F64)
  | chiSquared (k : F64)
  | fisherF (m n : F64)
  | studentT (n : F64)
  | poisson (lambda : F64)

/-- the samplers with a `u64` output -/
inductive NatSampler where
  | binomial (n : ℕ) (p : F64)
  | geometric (p : F64)

/-- argument checks of the `rand_distr` constructors: the call does not fail -/
def RealSampler.Accepts : RealSampler → Prop
  | .exp l => 0 ≤ l
  | .cauchy _ s => 0 < s
  | .pareto a b => 0 < a ∧ 0 < b
  | .weibull a b => 0 < a ∧ 0 < b
  | .triangular a b c => a ≤ b ∧ a ≤ c ∧ c ≤ b
  | .uniform a b => a < b
  | .uniformIncl a b => a ≤ b
  | .gamma a b => 0 < a ∧ 0 < b
  | .beta a b => 0 < a ∧ 0 < b
  | .chiSquared k => 0 < k
  | .fisherF m n => 0 < m ∧ 0 < n
  | .studentT n => 0 < n
  | .poisson l => 0 < l

/-- argument checks of the `rand_distr` constructors: the call does not fail -/
def NatSampler.Accepts : NatSampler → Prop
  | .binomial _ p => 0 ≤ p ∧ p ≤ 1
  | .geometric p => 0 ≤ p ∧ p ≤ 1

/-- a random source with state `σ`: what a draw from each sampler returns, and the state it leaves -/
structure RandSrc (σ : Type) where
  draw : RealSampler → σ → F64 × σ
  drawNat : NatSampler → σ → ℕ × σ
  /-- `rand_distr::Uniform::<i64>::new_inclusive(low, high)` -/
  drawInt : ℤ → ℤ → σ → ℤ × σ
  /-- `rng.gen_bool(p)` -/
  genBool : F64 → σ → Bool × σ

namespace RandSrc
variable {σ : Type} (g : RandSrc σ)
/-- `Sampler::new(args).unwrap().sample(rng)` -/
noncomputable def sample (c : RealSampler) (s : σ) : Except Panic F64 × σ :=
  if c.Accepts then (.ok (g.draw c s).1, (g.draw c s).2) else (.error .unwrap, s)
/-- the same for the `u64` samplers -/
noncomputable def sampleNat (c : NatSampler) (s : σ) : Except Panic ℕ × σ :=
  if c.Accepts then (.ok (g.drawNat c s).1, (g.drawNat c s).2) else (.error .unwrap, s)
end RandSrc

section
variable {σ : Type} (g : RandSrc σ) (s : σ)
/-- src/univariate/exponential.rs:53-57 -/
noncomputable def Exponential.sample (d : Exponential) : Except Panic F64 × σ := g.sample (.exp d.lambda) s
/-- src/univariate/cauchy.rs:66-72 -/
noncomputable def Cauchy.sample (d : Cauchy) : Except Panic F64 × σ := g.sample (.cauchy d.x0 d.gamma) s
/-- src/univariate/pareto.rs:52-60 -/
noncomputable def Pareto.sample (d : Pareto) : Except Panic F64 × σ := g.sample (.pareto d.xm d.alpha) s
/-- src/univariate/weibull.rs:57-63 -/
noncomputable def Weibull.sample (d : Weibull) : Except Panic F64 × σ := g.sample (.weibull d.lambda d.k) s
/-- src/univariate/triangular.rs:80-86, `get_params!` :40-44 -/
noncomputable def Triangular.sample [FP] (d : Triangular) : Except Panic F64 × σ := g.sample (.triangular d.a d.b d.c) s
/-- src/univariate/uniform.rs:133-139, `get_params!` :60-64 -/
noncomputable def UniformF.sample [FP] (d : UniformF) : Except Panic F64 × σ := g.sample (.uniformIncl d.lb (d.lb + d.width)) s
/-- src/univariate/gamma.rs:73-79 with `Into<rand_distr::Gamma>` :51-57 -/
noncomputable def Gamma.sample (d : Gamma) : Except Panic F64 × σ := g.sample (.gamma d.alpha d.beta) s
/-- src/univariate/beta.rs:61-67 -/
noncomputable def BetaDist.sample (d : BetaDist) : Except Panic F64 × σ := g.sample (.beta d.alpha d.beta) s
/-- src/univariate/chi_sq.rs:52-58 (`get_k!` is `k as f64`) -/
noncomputable def ChiSq.sample [FP] (d : ChiSq) : Except Panic F64 × σ := g.sample (.chiSquared d.kf) s
/-- src/univariate/f_dist.rs:57-65 -/
noncomputable def FDist.sample [FP] (d : FDist) : Except Panic F64 × σ := g.sample (.fisherF d.f1 d.f2) s
/-- src/univariate/student_t.rs:56-62 -/
noncomputable def StudentT.sample (d : StudentT) : Except Panic F64 × σ := g.sample (.studentT d.nu) s
/-- src/univariate/poisson.rs:55-61: the f64 draw is cast with `as u64` -/
noncomputable def Poisson.sample (d : Poisson) : Except Panic ℕ × σ :=
  match g.sample (.poisson d.lambda) s with
  | (.ok x, s') => (.ok x.toU64, s')
  | (.error e, s') => (.error e, s')
/-- src/univariate/binomial.rs:75-82 (`n as u64` and `as usize` do nothing on 64-bit targets) -/
noncomputable def Binomial.sample (d : Binomial) : Except Panic ℕ × σ := g.sampleNat (.binomial d.n d.p.val) s
/-- src/univariate/geometric.rs:53-59 -/
noncomputable def Geometric.sample (d : Geometric) : Except Panic ℕ × σ := g.sampleNat (.geometric d.p.val) s
/-- src/univariate/bernoulli.rs:72-74; `gen_bool` panics outside `[0, 1]` -/
noncomputable def Bernoulli.sample (d : Bernoulli) : Except Panic Bool × σ :=
  if 0 ≤ d.p.val ∧ d.p.val ≤ 1 then (.ok (g.genBool d.p.val s).1, (g.genBool d.p.val s).2) else (.error .explicit, s)
/-- src/univariate/uniform.rs:244-250; `lb + width` is checked i64 arithmetic, `new_inclusive` panics if `low > high` -/
def UniformI.sample (pr : Profile) (d : UniformI) : Except Panic ℤ × σ :=
  match i64chk pr (d.lb + d.width) with
  | .error e => (.error e, s)
  | .ok ub => if d.lb ≤ ub then (.ok (g.drawInt d.lb ub s).1, (g.drawInt d.lb ub s).2) else (.error .explicit, s)
/-- `Uniform::<f64>::default().sample(rng)`, src/univariate/uniform.rs:99-106, :133-139 -/
noncomputable def stdUniform [FP] : Except Panic F64 × σ := UniformF.default.sample g s
/-- src/univariate/frechet.rs:51-55 -/
noncomputable def Frechet.sample [FP] (d : Frechet) : Except Panic F64 × σ :=
  match stdUniform g s with
  | (.ok u, s') => (.ok (d.sampleFrom u), s')
  | (.error e, s') => (.error e, s')
/-- src/univariate/kumaraswamy.rs:56-61 -/
noncomputable def Kumaraswamy.sample [FP] (d : Kumaraswamy) : Except Panic F64 × σ :=
  match stdUniform g s with
  | (.ok u, s') => (.ok (d.sampleFrom u), s')
  | (.error e, s') => (.error e, s')
/-- src/univariate/laplace.rs:51-58 -/
noncomputable def Laplace.sample [FP] (d : Laplace) : Except Panic F64 × σ :=
  match g.sample (.uniform (F64.fin (-1 / 2)) (F64.fin (1 / 2))) s with
  | (.ok u, s') => (.ok (d.sampleFrom u), s')
  | (.error e, s') => (.error e, s')
end

section
variable {σ : Type} (s : σ)
/-- src/univariate/arcsine.rs:64 -/
def Arcsine.sample (_ : Arcsine) : Except Panic F64 × σ := (.error .unimplemented, s)
/-- src/univariate/beta_binomial.rs:86 -/
def BetaBinomial.sample (_ : BetaBinomial) : Except Panic ℕ × σ := (.error .unimplemented, s)
/-- src/univariate/beta_prime.rs:58 -/
def BetaPrime.sample (_ : BetaPrime) : Except Panic F64 × σ := (.error .unimplemented, s)
/-- src/univariate/chi.rs:49 -/
def Chi.sample (_ : Chi) : Except Panic F64 × σ := (.error .unimplemented, s)
/-- src/univariate/cosine.rs:65 -/
def Cosine.sample (_ : Cosine) : Except Panic F64 × σ := (.error .unimplemented, s)
/-- src/univariate/erlang.rs:59 -/
def Erlang.sample (_ : Erlang) : Except Panic F64 × σ := (.error .unimplemented, s)
/-- src/univariate/gev.rs:70 -/
def GeneralisedExtremeValue.sample (_ : GeneralisedExtremeValue) : Except Panic F64 × σ := (.error .unimplemented, s)
/-- src/univariate/gpd.rs:57 -/
def GeneralisedPareto.sample (_ : GeneralisedPareto) : Except Panic F64 × σ := (.error .unimplemented, s)
/-- src/univariate/gumbel.rs:62 -/
def Gumbel.sample (_ : Gumbel) : Except Panic F64 × σ := (.error .unimplemented, s)
/-- src/univariate/inverse_gamma.rs:58 -/
def InvGamma.sample (_ : InvGamma) : Except Panic F64 × σ := (.error .unimplemented, s)
/-- src/univariate/levy.rs:51 -/
def Levy.sample (_ : Levy) : Except Panic F64 × σ := (.error .unimplemented, s)
/-- src/univariate/logistic.rs:56 -/
def Logistic.sample (_ : Logistic) : Except Panic F64 × σ := (.error .unimplemented, s)
/-- src/univariate/rayleigh.rs:58 -/
def Rayleigh.sample (_ : Rayleigh) : Except Panic F64 × σ := (.error .unimplemented, s)
end
end Rstat
