import Verif.Lemmas.Repeat2
import Verif.Props.Mixture
import Verif.Props.Normal2
import Verif.Props.MvLogNormal
import Verif.Props.Dirichlet
import Verif.Props.Dist.Categorical
import Verif.Props.Dist.FoldedNormal
import Verif.Props.Dist.InvNormal
import Verif.Props.Dist.LogNormal

/-! Properties C214-C217: successive samples of the distributions built on normal, uniform and Gamma draws are independent, with the law
of the distribution, for every source of such draws that behaves as documented for ever (`Spec/Repeat.lean`). `Spec.stream_normal` and
`Spec.stream_uniform` (Lemmas/Repeat2.lean) show that such sources exist. -/
set_option linter.unusedSectionVars false
namespace Rstat
open F64 Consts Spec MeasureTheory ProbabilityTheory Set Matrix

/-- a function of one normal draw -/
theorem normal_renews {σ : Type} [MeasurableSpace σ] {g : NormalRng σ} {P : Measure σ} (hg : NormalSource g P) {T : ℝ → ℝ} (hT : Measurable T)
    {Z : σ → Except Panic F64 × σ} (h : ∀ s z, (g.draw s).1.Is z → ∃ y, (Z s).1 = .ok y ∧ y.Is (T z)) (h2 : ∀ s, (Z s).2 = (g.draw s).2) :
    Renews P F64.Is Z ((gaussianReal 0 1).map T) := by
  have := hg.prob
  exact hg.draw.map' hT MeasurableSet.univ (by simp) (fun s x w _ hx hr => by cases hx; exact ⟨h2 s, h s w hr⟩)

theorem normal_iid {σ : Type} [MeasurableSpace σ] {g : NormalRng σ} {P : Measure σ} (hg : NormalSource g P) {T : ℝ → ℝ} (hT : Measurable T)
    {Z : σ → Except Panic F64 × σ} (h : ∀ s z, (g.draw s).1.Is z → ∃ y, (Z s).1 = .ok y ∧ y.Is (T z)) (h2 : ∀ s, (Z s).2 = (g.draw s).2) :
    IID P F64.Is Z ((gaussianReal 0 1).map T) := by
  have := hg.prob
  have : IsProbabilityMeasure ((gaussianReal 0 1).map T) := Measure.isProbabilityMeasure_map hT.aemeasurable
  exact (normal_renews hg hT h h2).iid

section
variable [FP] [FP.Exact]

theorem uv_sample_is {mu S : F64} {m v : ℝ} {d : UvNormal} (h : UvNormal.new mu S = .ok d) (hm : mu.Is m) (hv : S.Is v) {σ : Type}
    (g : NormalRng σ) (s : σ) : 0 < v ∧ (d.sample g s).2 = (g.draw s).2 ∧
      ∀ z : ℝ, (g.draw s).1.Is z → ∃ y, (d.sample g s).1 = .ok y ∧ y.Is (m + √v * z) := by
  obtain ⟨h0, rfl⟩ := UvNormal.new_ok.1 h
  have v0 : 0 < v := pos_of_lt h0 hv
  have f : (S.sqrt).isFinite := (hv.sqrt v0.le).isFinite
  refine ⟨v0, ?_, fun z hz => ⟨mu + S.sqrt * (g.draw s).1, ?_, hm.add ((hv.sqrt v0.le).mul hz)⟩⟩ <;>
    (unfold UvNormal.sample; rw [if_pos f])

/-- C214: successive univariate normal samples are independent, normal with the given mean and variance. -/
theorem C214_normal {mu S : F64} {m v : ℝ} {d : UvNormal} (h : UvNormal.new mu S = .ok d) (hm : mu.Is m) (hv : S.Is v)
    {σ : Type} [MeasurableSpace σ] {g : NormalRng σ} {P : Measure σ} (hg : NormalSource g P) :
    IID P F64.Is (fun s => d.sample g s) (gaussianReal m v.toNNReal) := by
  have v0 : 0 < v := pos_of_lt (UvNormal.new_ok.1 h).1 hv
  have e : (gaussianReal 0 1).map (fun z => m + √v * z) = gaussianReal m v.toNNReal := by
    have : (fun z : ℝ => m + √v * z) = (fun z => m + z) ∘ fun z => √v * z := rfl
    rw [this, ← Measure.map_map (by fun_prop) (by fun_prop), gaussianReal_map_const_mul, gaussianReal_map_const_add]
    congr 1
    · simp
    · ext; simp [Real.sq_sqrt v0.le, Real.coe_toNNReal _ v0.le]
  rw [← e]
  exact normal_iid hg (by fun_prop) (fun s z hz => (uv_sample_is h hm hv g s).2.2 z hz) fun s => (uv_sample_is h hm hv g s).2.1

/-- C214: folded normal -/
theorem C214_folded_normal {mu sigma : F64} {m s : ℝ} {d : FoldedNormal} (h : FoldedNormal.new mu sigma = .ok d) (hm : mu.Is m) (hs : sigma.Is s)
    {σ : Type} [MeasurableSpace σ] {g : NormalRng σ} {P : Measure σ} (hg : NormalSource g P) :
    IID P F64.Is (fun s => d.sample g s) (Law (foldedPDF m s)) := by
  obtain ⟨-, -, -, -, -, -, -, h1, h2⟩ := C173_folded_normal h hm hs
  rw [← h2]
  exact normal_iid hg (by fun_prop) (fun st z hz => (h1 σ g st).2 z hz) fun st => (h1 σ g st).1

/-- C214: inverse normal; each sample takes one normal and one uniform draw -/
theorem C214_inverse_normal {mu lambda : F64} {m l : ℝ} {d : InvNormal} (h : InvNormal.new mu lambda = .ok d) (hm : mu.Is m) (hl : lambda.Is l)
    {σ : Type} [MeasurableSpace σ] {g : NormalRng σ} {u : σ → F64 × σ} {P : Measure σ} (hg : NormalSource g P) (hu : UniformSource u P) :
    IID P F64.Is (fun s => d.sample g u s) (Law (invNormalPDF m l)) := by
  obtain ⟨T, hT, h1, h2⟩ := C181_invNormal_sample h hm hl
  have := hg.prob
  have : IsProbabilityMeasure (unif 0 1) := unif_prob (by norm_num)
  have e : volume.restrict (Icc (0:ℝ) 1) = unif 0 1 := by
    unfold unif ProbabilityTheory.cond; simp
  rw [e] at h2
  rw [← h2]
  have : IsProbabilityMeasure (((gaussianReal 0 1).prod (unif 0 1)).map fun p => T p.1 p.2) := Measure.isProbabilityMeasure_map hT.aemeasurable
  refine Renews.iid ?_
  refine (hg.draw.pair hu.draw (B := fun s => (.ok ((g.draw s).1, (u (g.draw s).2).1), (u (g.draw s).2).2))
    (fun s x y hx hy => by cases hx; cases hy; rfl) fun s => rfl).map' hT MeasurableSet.univ (by simp) fun s x w _ hx hr => ?_
  cases hx
  obtain ⟨y, hy, hr⟩ := h1 σ g u s w.1 w.2 hr.1 hr.2
  exact ⟨by rw [hy], y, by rw [hy], hr⟩

/-! ### C215: vectors -/

/-- a vector-valued sampler that is a function of `n` successive normal draws -/
theorem normalVec_iid {n : ℕ} {σ : Type} [MeasurableSpace σ] {g : NormalRng σ} {P : Measure σ} (hg : NormalSource g P) {W : Type} [MeasurableSpace W]
    {R : (Fin n → F64) → W → Prop} {T : (Fin n → ℝ) → W} (hT : Measurable T) {smp : σ → (Fin n → F64) × σ}
    (h : ∀ s (z : Fin n → ℝ), (∀ i : Fin n, (g.nth s i).Is (z i)) → R (smp s).1 (T z)) (h2 : ∀ s, (smp s).2 = g.stateAt s n) :
    IID P R (total smp) ((Measure.pi fun _ : Fin n => gaussianReal 0 1).map T) := by
  have := hg.prob
  have : IsProbabilityMeasure ((Measure.pi fun _ : Fin n => gaussianReal 0 1).map T) := Measure.isProbabilityMeasure_map hT.aemeasurable
  exact (renews_vec (X := fun _ => g.draw) (μ := fun _ => gaussianReal 0 1) (fun k _ => hg.draw) (st := fun k s => g.stateAt s k)
    (fun s => rfl) (fun k _ s => rfl) hT (fun s w hw => ⟨_, rfl, h s w hw⟩) h2).iid

theorem affine_iid {n : ℕ} {σ : Type} [MeasurableSpace σ] {g : NormalRng σ} {P : Measure σ} (hg : NormalSource g P)
    {smp : ∀ {σ : Type}, NormalRng σ → σ → (Fin n → F64) × σ} {m : Fin n → ℝ} {M : Matrix (Fin n) (Fin n) ℝ} (h : SamplesAffine smp m M)
    (h2 : ∀ s, (smp g s).2 = g.stateAt s n) : IID P VecIs (total fun s => smp g s) (multivariateGaussian (WithLp.toLp 2 m) M) := by
  obtain ⟨A, hA, h⟩ := h
  rw [← affine_law m A M hA]
  exact normalVec_iid hg (by fun_prop) (fun s z hz i => h g s z hz i) h2

theorem law_iid {n : ℕ} {σ : Type} [MeasurableSpace σ] {g : NormalRng σ} {P : Measure σ} (hg : NormalSource g P)
    {smp : ∀ {σ : Type}, NormalRng σ → σ → (Fin n → F64) × σ} {μ : Measure (Fin n → ℝ)} (h : SamplesLaw smp μ)
    (h2 : ∀ s, (smp g s).2 = g.stateAt s n) : IID P ArrIs (total fun s => smp g s) μ := by
  obtain ⟨T, hT, h, rfl⟩ := h
  exact normalVec_iid hg hT (fun s z hz i => h g s z hz i) h2

section
variable {σ : Type} [MeasurableSpace σ] {g : NormalRng σ} {P : Measure σ}

/-- C215: successive samples of the general multivariate normal are independent, Gaussian with the given mean and covariance. -/
theorem C215_multivariate_normal [Lapack] [Lapack.Exact] {n : ℕ} {mu : Fin n → F64} {S : Fin n → Fin n → F64}
    {m : Fin n → ℝ} {M : Matrix (Fin n) (Fin n) ℝ} {d : MvNormal n} (h : MvNormal.new mu S = .ok d)
    (hm : ∀ i, (mu i).Is (m i)) (hS : ∀ i j, (S i j).Is (M i j)) (hM : M.PosDef) (hg : NormalSource g P) :
    IID P VecIs (total fun s => d.sample g s) (multivariateGaussian (WithLp.toLp 2 m) M) :=
  affine_iid hg (C51_mv_sample h hm hS hM).1 fun s => rfl

/-- C215: the bivariate normal; also for correlation ±1 -/
theorem C215_bivariate_normal {mu S : Fin 2 → F64} {rho : F64} {m s : Fin 2 → ℝ} {r : ℝ} {d : BvNormal} (h : BvNormal.new mu S rho = .ok d)
    (hm : ∀ i, (mu i).Is (m i)) (hS : ∀ i, (S i).Is (s i)) (hr : rho.Is r) (hg : NormalSource g P) :
    ∃ C : Matrix (Fin 2) (Fin 2) ℝ, (∀ i j, (d.covariance i j).Is (C i j)) ∧
      IID P VecIs (total fun s => d.sample g s) (multivariateGaussian (WithLp.toLp 2 m) C) := by
  obtain ⟨A, C, h1, h2, h3⟩ := C48_bivariate_sample h hm hS hr
  refine ⟨C, h1, ?_⟩
  rw [← affine_law m A C h2]
  exact normalVec_iid hg (by fun_prop) (fun s z hz i => (h3 g s z (hz 0) (hz 1)).2 i) fun s => rfl

/-- C215: the pair of independent normals -/
theorem C215_paired_normal {mu S : Fin 2 → F64} {m s : Fin 2 → ℝ} {d : PairedNormal} (h : PairedNormal.new mu S = .ok d)
    (hm : ∀ i, (mu i).Is (m i)) (hS : ∀ i, (S i).Is (s i)) (hg : NormalSource g P) :
    IID P VecIs (total fun s => d.sample g s) (multivariateGaussian (WithLp.toLp 2 m) (diagonal s)) := by
  obtain ⟨hp, rfl⟩ := PairedNormal.new_ok.1 h
  have hs : ∀ i, 0 < s i := fun i => pos_of_lt (hp i) (hS i)
  rw [← affine_law m (diagonal fun i => √(s i)) (diagonal s) (by
    rw [diagonal_transpose, diagonal_mul_diagonal]; congr 1; funext i; exact Real.mul_self_sqrt (hs i).le)]
  refine normalVec_iid hg (by fun_prop) (fun st z hz i => ?_) fun s => rfl
  have h0 := (hm 0).add (((hS 0).sqrt (hs 0).le).mul (hz 0))
  have h1 := (hm 1).add (((hS 1).sqrt (hs 1).le).mul (hz 1))
  simp only [mulVec_diagonal, PiLp.toLp_apply, Pi.add_apply]
  fin_cases i
  · exact h0
  · exact h1

/-- C215 (partial, diagonal covariance): successive samples are independent and Gaussian, but with every variance squared (see C51). -/
theorem C215_diagonal_normal_partial {n : ℕ} {mu S : Fin n → F64} {m v : Fin n → ℝ} {d : DiagNormal n} (h : DiagNormal.new mu S = .ok d)
    (hm : ∀ i, (mu i).Is (m i)) (hS : ∀ i, (S i).Is (v i)) (hg : NormalSource g P) :
    IID P VecIs (total fun s => d.sample g s) (multivariateGaussian (WithLp.toLp 2 m) (diagonal fun i => v i ^ 2)) :=
  affine_iid hg (C51_diag_sample_partial h hm hS).1 fun s => rfl

/-- C215 (partial, isotropic covariance): successive samples are independent and Gaussian, but with the variance squared (see C51). -/
theorem C215_isotropic_normal_partial {n : ℕ} {mu : Fin n → F64} {S : F64} {m : Fin n → ℝ} {v : ℝ} {d : IsoNormal n} (h : IsoNormal.new mu S = .ok d)
    (hm : ∀ i, (mu i).Is (m i)) (hS : S.Is v) (hg : NormalSource g P) :
    IID P VecIs (total fun s => d.sample g s) (multivariateGaussian (WithLp.toLp 2 m) (diagonal fun _ => v ^ 2)) :=
  affine_iid hg (C51_iso_sample_partial h hm hS).1 fun s => rfl

/-- C215: the multivariate log-normal with general covariance -/
theorem C215_multivariate_lognormal [Lapack] [Lapack.Exact] {n : ℕ} {mu : Fin n → F64} {S : Fin n → Fin n → F64}
    {m : Fin n → ℝ} {M : Matrix (Fin n) (Fin n) ℝ} {d : MvNormal n} (h : MvNormal.new mu S = .ok d)
    (hm : ∀ i, (mu i).Is (m i)) (hS : ∀ i j, (S i j).Is (M i j)) (hM : M.PosDef) (hg : NormalSource g P) :
    IID P ArrIs (total fun s => MvLogNormal.sample (d.sample g s)) (expLaw (multivariateGaussian (WithLp.toLp 2 m) M)) :=
  law_iid hg (C190_mvlognormal_sample_law h hm hS hM) fun s => rfl

/-- C215 (partial): the log-normal with diagonal covariance, with every variance squared (see C190) -/
theorem C215_diagonal_lognormal_partial {n : ℕ} {mu S : Fin n → F64} {m v : Fin n → ℝ} {d : DiagNormal n} (h : DiagNormal.new mu S = .ok d)
    (hm : ∀ i, (mu i).Is (m i)) (hS : ∀ i, (S i).Is (v i)) (hg : NormalSource g P) :
    IID P ArrIs (total fun s => MvLogNormal.sample (d.sample g s))
      (expLaw (multivariateGaussian (WithLp.toLp 2 m) (diagonal fun i => v i ^ 2))) :=
  law_iid hg (C190_diag_lognormal_sample_partial h hm hS) fun s => rfl

/-- C215 (partial): the log-normal with isotropic covariance, with the variance squared (see C190) -/
theorem C215_isotropic_lognormal_partial {n : ℕ} {mu : Fin n → F64} {S : F64} {m : Fin n → ℝ} {v : ℝ} {d : IsoNormal n} (h : IsoNormal.new mu S = .ok d)
    (hm : ∀ i, (mu i).Is (m i)) (hS : S.Is v) (hg : NormalSource g P) :
    IID P ArrIs (total fun s => MvLogNormal.sample (d.sample g s))
      (expLaw (multivariateGaussian (WithLp.toLp 2 m) (diagonal fun _ => v ^ 2))) :=
  law_iid hg (C190_iso_lognormal_sample_partial h hm hS) fun s => rfl
end

/-! ### C216: choices -/

/-- which category a uniform variate selects -/
theorem index_renews (pr : Profile) {v : SimplexVector} {ws : List ℝ} (hv : List.Forall₂ F64.Is v.ps ws) (h0 : ∀ w ∈ ws, 0 ≤ w) (h1 : ws.sum = 1)
    {σ : Type} [MeasurableSpace σ] {g : Rng σ} {P : Measure σ} (hg : UniformSource g.gen P) :
    Renews P (fun (k : ℕ) (i : Fin ws.length) => k = i) (fun s => v.sampleIndex pr g s) (massMeasure fun i : Fin ws.length => ws[i]) := by
  have hlen : v.ps.length = ws.length := hv.length_eq
  have hK : 1 ≤ ws.length := by
    rcases ws with _ | ⟨a, l⟩
    · simp at h1
    · simp
  have hS : ∀ j, (F64.sum (v.ps.take j)).Is (ws.take j).sum := fun j => Is.sum (List.forall₂_take j hv)
  have hS' : ∀ j, (F64.sum ((ws.map F64.fin).take j)).Is (ws.take j).sum := fun j =>
    Is.sum (List.forall₂_take j (by rw [List.forall₂_map_left_iff]; exact List.forall₂_same.2 fun a _ => Is.fin a))
  have key : ∀ (x : F64) (u : ℝ), x.Is u → ∀ i < ws.length, (v.indexOf pr x = .ok i ↔ (SimplexVector.mk (ws.map F64.fin)).indexOf pr (fin u) = .ok i) := by
    intro x u hx i hi
    rw [C08_sample_index_spec pr v x i (by omega), C08_sample_index_spec pr (SimplexVector.mk (ws.map F64.fin)) (fin u) i (by simpa using hi)]
    simp only [fun j => hx.lt_iff (hS j), fun j => (Is.fin u).lt_iff (hS' j), List.length_map, hlen]
  have ex : ∀ x : F64, ∃ i < v.ps.length, v.indexOf pr x = .ok i := fun x => by
    obtain ⟨⟨i, hi, h⟩, -⟩ := C07_sample_index_in_range pr ⟨fun _ : Unit => (x, ())⟩ v () (by omega)
    exact ⟨i, hi, h⟩
  choose idx hidx hidx2 using ex
  let T : ℝ → Fin ws.length := fun u => ⟨idx (fin u), by have := hidx (fin u); omega⟩
  have hT1 : ∀ u i, T u = i ↔ (SimplexVector.mk (ws.map F64.fin)).indexOf pr (fin u) = .ok (i : ℕ) := fun u i => by
    rw [← key (fin u) u (Is.fin u) i i.2, hidx2 (fin u)]
    simp only [Except.ok.injEq, T, Fin.ext_iff]
  have hT : Measurable T := by
    refine measurable_to_countable' fun i => ?_
    have : T ⁻¹' {i} = {u | (u < (ws.take (i + 1)).sum ∧ ∀ j < (i : ℕ), ¬ u < (ws.take (j + 1)).sum) ∨
        ((i : ℕ) + 1 = ws.length ∧ ∀ j < ws.length, ¬ u < (ws.take (j + 1)).sum)} := by
      ext u
      simp only [mem_preimage, mem_singleton_iff, hT1, Set.mem_ofPred_eq]
      rw [C08_sample_index_spec pr (SimplexVector.mk (ws.map F64.fin)) (fin u) i (by simp)]
      simp only [fun j => (Is.fin u).lt_iff (hS' j), List.length_map]
    have hall : ∀ k : ℕ, MeasurableSet {u : ℝ | ∀ j < k, ¬ u < (ws.take (j + 1)).sum} := fun k => by
      have : {u : ℝ | ∀ j < k, ¬ u < (ws.take (j + 1)).sum} = ⋂ (j : ℕ) (_ : j < k), (Iio (ws.take (j + 1)).sum)ᶜ := by
        ext u; simp
      rw [this]
      exact MeasurableSet.iInter fun j => MeasurableSet.iInter fun _ => measurableSet_Iio.compl
    rw [this]
    exact MeasurableSet.union (MeasurableSet.inter (s₁ := Iio (ws.take (i + 1)).sum) measurableSet_Iio (hall i))
      (MeasurableSet.inter (MeasurableSet.const _) (hall _))
  have hu : IsProbabilityMeasure (unif 0 1) := unif_prob (by norm_num)
  have := hg.prob
  have hlaw : (unif 0 1).map T = massMeasure fun i : Fin ws.length => ws[i] := by
    refine eq_massMeasure fun i => ?_
    rw [Measure.map_apply hT (measurableSet_singleton i), unif, ProbabilityTheory.cond_apply measurableSet_Icc]
    have := C08_sample_index_measure pr ws h0 h1 i i.2
    refine Eq.trans ?_ this
    simp only [Real.volume_Icc, sub_zero, ENNReal.ofReal_one, inv_one, one_mul]
    have e : ({u : ℝ | 0 ≤ u ∧ u < 1 ∧ (SimplexVector.mk (ws.map F64.fin)).indexOf pr (fin u) = .ok (i : ℕ)}) = Ico 0 1 ∩ T ⁻¹' {i} := by
      ext u
      simp only [Set.mem_ofPred_eq, mem_inter_iff, mem_Ico, mem_preimage, mem_singleton_iff, hT1, and_assoc]
    rw [e]
    exact measure_congr (Ico_ae_eq_Icc.symm.inter Filter.EventuallyEq.rfl)
  rw [← hlaw]
  refine hg.draw.map' hT MeasurableSet.univ (by simp) fun s x u _ hx hr => ?_
  cases hx
  refine ⟨rfl, idx (fin u), ?_, rfl⟩
  exact (key _ u hr _ (by have := hidx (fin u); omega)).2 ((key _ u (Is.fin u) _ (by have := hidx (fin u); omega)).1 (hidx2 (fin u)))

theorem mass_prob {ws : List ℝ} (h0 : ∀ w ∈ ws, 0 ≤ w) (h1 : ws.sum = 1) : IsProbabilityMeasure (massMeasure fun i : Fin ws.length => ws[i]) := ⟨by
  rw [massMeasure, Measure.sum_fintype]
  simp only [Measure.coe_finsetSum, Finset.sum_apply, Measure.smul_apply, measure_univ, smul_eq_mul, mul_one]
  rw [← ENNReal.ofReal_sum_of_nonneg (f := fun i : Fin ws.length => ws[i]) fun i _ => h0 _ (List.getElem_mem i.2), ← ENNReal.ofReal_one, ← h1]
  congr 1
  exact Fin.sum_univ_getElem ws⟩

theorem weights_nonneg {ps : List F64} {ws : List ℝ} {v : SimplexVector} (h : SimplexVector.new ps = .ok v) (hw : List.Forall₂ F64.Is ps ws) :
    v.ps = ps ∧ ∀ w ∈ ws, 0 ≤ w := by
  obtain ⟨e1, e2, -⟩ := (C05_simplex_new_iff ps v).1 h
  refine ⟨e1, fun w hw' => ?_⟩
  obtain ⟨i, hi, rfl⟩ := List.getElem_of_mem hw'
  have hi' : i < ps.length := by rw [hw.length_eq]; exact hi
  obtain ⟨r, hr, h0, _⟩ := e2 ps[i] (List.getElem_mem hi')
  rwa [hr.eq (List.Forall₂.get hw hi' hi)] at h0

/-- C216: successive categorical samples are independent, and take each category with its weight (weights adding up to 1). -/
theorem C216_categorical (pr : Profile) {ps : List F64} {ws : List ℝ} {d : Categorical} (h : Categorical.new ps = .ok d)
    (hw : List.Forall₂ F64.Is ps ws) (h1 : ws.sum = 1) {σ : Type} [MeasurableSpace σ] {g : Rng σ} {P : Measure σ} (hg : UniformSource g.gen P) :
    IID P (fun (k : ℕ) (i : Fin ws.length) => k = i) (fun s => d.sample pr g s) (massMeasure fun i : Fin ws.length => ws[i]) := by
  obtain ⟨e1, h0⟩ := weights_nonneg (Categorical.new_ok.1 h) hw
  have hr := index_renews pr (v := d.ps) (by rw [e1]; exact hw) h0 h1 hg
  have := hg.prob
  have := mass_prob h0 h1
  exact hr.iid

/-- C216: successive samples of a mixture are independent with the mixture law `Σ wᵢ νᵢ`, when the weights add up to 1 and the sampler of
component `i`, repeated, is independent with law `νᵢ`. -/
theorem C216_mixture {C S Q X W : Type} [MeasurableSpace W] [Support S] {σ : Type} [MeasurableSpace σ] (D : Comp C S Q X σ) (pr : Profile) {ps : List F64}
    {cs : List C} {m : Mixture C S} (h : Mixture.new D ps cs = .ok (.ok m)) {ws : List ℝ} (hw : List.Forall₂ F64.Is ps ws) (h1 : ws.sum = 1)
    {g : Rng σ} {P : Measure σ} (hg : UniformSource g.gen P) {R : X → W → Prop} {ν : Fin ws.length → Measure W} [∀ i, IsProbabilityMeasure (ν i)]
    (hν : ∀ (i : Fin ws.length) (c : C), cs[(i : ℕ)]? = some c → Renews P R (total (D.sample c)) (ν i)) :
    Renews P R (fun s => m.sample D pr g s) (∑ i, ENNReal.ofReal ws[i] • ν i) ∧
    IID P R (fun s => m.sample D pr g s) (∑ i, ENNReal.ofReal ws[i] • ν i) := by
  obtain ⟨hl, -, hv, hc⟩ := Mixture.new_ok D ps cs m h
  obtain ⟨e1, h0⟩ := weights_nonneg hv hw
  have := hg.prob
  have hlen := hw.length_eq
  have hr := index_renews pr (v := m.weights) (by rw [e1]; exact hw) h0 h1 hg
  have key : Renews P R (fun s => m.sample D pr g s) (∑ i, ENNReal.ofReal ws[i] • ν i) := by
    refine hr.choose (Z := fun i => total (D.sample (cs[(i : ℕ)]'(by have := i.2; omega)))) (fun i => hν i _ (List.getElem?_eq_getElem _)) fun s i hi => ?_
    obtain ⟨j, c, hj, hidx, hs⟩ := C36_sample D pr g m s (by rw [hc, e1, hl]) (by have := i.2; rw [e1]; omega)
    rw [hs]
    have : j = i := by
      have h2 : m.weights.indexOf pr (g.gen s).1 = .ok (i : ℕ) := hi
      rw [h2] at hidx; cases hidx; rfl
    subst this
    rw [hc, List.getElem?_eq_getElem (by have := i.2; omega)] at hj
    cases hj; rfl
  have : IsProbabilityMeasure (∑ i, ENNReal.ofReal ws[i] • ν i) := ⟨by
    have := (mass_prob h0 h1).measure_univ
    rw [massMeasure, Measure.sum_fintype] at this
    simpa [Measure.coe_finsetSum, Finset.sum_apply, Measure.smul_apply, measure_univ, smul_eq_mul, mul_one] using this⟩
  exact ⟨key, key.iid⟩

/-! ### C217: log-normal and Dirichlet -/

/-- C217 (partial): successive log-normal samples are independent and log-normal, but with the distribution's own mean and standard deviation in the
place of the parameters of the logarithm (see C171). -/
theorem C217_lognormal_partial {a b : F64} {μ v : ℝ} {d : LogNormal} (h : LogNormal.new a b = .ok d) (ha : a.Is μ) (hb : b.Is v)
    {σ : Type} [MeasurableSpace σ] {g : NormalRng σ} {P : Measure σ} (hg : NormalSource g P) :
    ∃ M S : ℝ, d.mean.Is M ∧ d.standardDeviation.Is S ∧ 0 < S ∧
      IID P F64.Is (fun s => d.sample g s) ((gaussianReal M (S ^ 2).toNNReal).map Real.exp) := by
  obtain ⟨M, S, h1, h2, h3, h4, -⟩ := C171_lognormal_sample_violated h ha hb
  refine ⟨M, S, h1, h2, h3, ?_⟩
  have e : (gaussianReal 0 1).map (fun z => Real.exp (M + S * z)) = (gaussianReal M (S ^ 2).toNNReal).map Real.exp := by
    have e1 : (fun z : ℝ => Real.exp (M + S * z)) = Real.exp ∘ (fun z => M + z) ∘ fun z => S * z := rfl
    rw [e1, ← Measure.map_map (by fun_prop) (by fun_prop), ← Measure.map_map (by fun_prop) (by fun_prop), gaussianReal_map_const_mul,
      gaussianReal_map_const_add]
    congr 2
    · simp
    · ext; simp [Real.coe_toNNReal _ (sq_nonneg S)]
  rw [← e]
  exact normal_iid hg (by fun_prop) (fun s z hz => h4 σ g s z hz) fun s => by unfold LogNormal.sample; rw [if_pos h2.isFinite]

/-- C217 (partial): successive Dirichlet samples are independent, each the vector of independent Gamma variates divided by the sum of the
parameters (not of the variates, so it is not the Dirichlet law, see C101). -/
theorem C217_dirichlet_partial {m : ℕ} {al : Fin (m + 1) → F64} {a : Fin (m + 1) → ℝ} (hal : ∀ i, (al i).Is (a i)) (ha : ∀ i, 0 < a i)
    {σ : Type} [MeasurableSpace σ] {g : GammaRng σ} {P : Measure σ} (hg : GammaSource g P) :
    IID P ArrIs (fun s => (Dirichlet.newUnchecked al).sample g s)
      ((Measure.pi fun i => gammaMeasure (a i) 1).map fun G i => G i / ∑ j, a j) := by
  have := hg.prob
  have hp : ∀ i, IsProbabilityMeasure (gammaMeasure (a i) 1) := fun i => isProbabilityMeasure_gammaMeasure (ha i) one_pos
  have hT : Measurable fun (G : Fin (m + 1) → ℝ) (i : Fin (m + 1)) => G i / ∑ j, a j := by fun_prop
  have : IsProbabilityMeasure ((Measure.pi fun i => gammaMeasure (a i) 1).map fun (G : Fin (m + 1) → ℝ) (i : Fin (m + 1)) => G i / ∑ j, a j) :=
    Measure.isProbabilityMeasure_map hT.aemeasurable
  have hp' : ∀ i : ℕ, IsProbabilityMeasure (gammaMeasure (a (Fin.ofNat (m + 1) i)) 1) := fun i => hp _
  have hi : ∀ i : Fin (m + 1), Fin.ofNat (m + 1) (i : ℕ) = i := fun i => Fin.ofNat_val_eq_self i
  have hk : ∀ k (h : k < m + 1), Fin.ofNat (m + 1) k = ⟨k, h⟩ := fun k h => hi ⟨k, h⟩
  have key := renews_vec (R := F64.Is) (X := fun k => g.draw (al (Fin.ofNat (m + 1) k)) 1) (μ := fun k => gammaMeasure (a (Fin.ofNat (m + 1) k)) 1) (n := m + 1)
    (fun k _ => by simpa using hg.draw _ 1 _ 1 (hal _) Is.one (ha _) one_pos) (st := fun k s => g.stateAt al s k) (fun s => rfl)
    (fun k hk' s => by simp only [GammaRng.stateAt, dif_pos hk', hk k hk']) hT (Z := fun s => (Dirichlet.newUnchecked al).sample g s) (R' := ArrIs)
    (fun s w hw => dir_sample g s hal ha fun i => by have := hw i; rwa [hi] at this)
    (fun s => by unfold Dirichlet.sample; rw [if_pos (show ∀ i, 0 < (Dirichlet.newUnchecked al).alphas i from fun i => lt_of_pos (ha i) (hal i))]; rfl)
  simp only [hi] at key
  exact key.iid
end

/-! ### non-vacuity -/
section
attribute [local instance] exactFP exactFP_exact exactLapack exactLapack_exact

/-- one source of both normal and uniform draws -/
theorem stream_both : NormalSource ⟨fun s : ℕ → ℝ × ℝ => (fin (s 0).1, shift s)⟩ (Measure.infinitePi fun _ : ℕ => (gaussianReal 0 1).prod (unif 0 1)) ∧
    UniformSource (fun s : ℕ → ℝ × ℝ => (fin (s 0).2, shift s)) (Measure.infinitePi fun _ : ℕ => (gaussianReal 0 1).prod (unif 0 1)) := by
  have hu : IsProbabilityMeasure (unif 0 1) := unif_prob (by norm_num)
  have e1 : ((gaussianReal 0 1).prod (unif 0 1)).map Prod.fst = gaussianReal 0 1 := by rw [Measure.map_fst_prod, measure_univ, one_smul]
  have e2 : ((gaussianReal 0 1).prod (unif 0 1)).map Prod.snd = unif 0 1 := by rw [Measure.map_snd_prod, measure_univ, one_smul]
  refine ⟨⟨inferInstance, ?_⟩, ⟨inferInstance, ?_⟩⟩
  · have := stream_renews ((gaussianReal 0 1).prod (unif 0 1)) (R := F64.Is) (X := total fun s : ℕ → ℝ × ℝ => (fin (s 0).1, shift s))
      measurable_fst (v := fun t => fin t.1) (fun t => Is.fin _) fun s => rfl
    rwa [e1] at this
  · have := stream_renews ((gaussianReal 0 1).prod (unif 0 1)) (R := F64.Is) (X := total fun s : ℕ → ℝ × ℝ => (fin (s 0).2, shift s))
      measurable_snd (v := fun t => fin t.2) (fun t => Is.fin _) fun s => rfl
    rwa [e2] at this

/-- the hypotheses of C214-C216 are met: normal, folded and inverse normal samples from that source -/
example : ∃ (d : UvNormal) (e : InvNormal), UvNormal.new (fin 1) (fin 4) = .ok d ∧ InvNormal.new (fin 2) (fin 3) = .ok e ∧
    IID (Measure.infinitePi fun _ : ℕ => (gaussianReal 0 1).prod (unif 0 1)) F64.Is
      (fun s => d.sample ⟨fun s : ℕ → ℝ × ℝ => (fin (s 0).1, shift s)⟩ s) (gaussianReal 1 (4:ℝ).toNNReal) ∧
    IID (Measure.infinitePi fun _ : ℕ => (gaussianReal 0 1).prod (unif 0 1)) F64.Is
      (fun s => e.sample ⟨fun s : ℕ → ℝ × ℝ => (fin (s 0).1, shift s)⟩ (fun s : ℕ → ℝ × ℝ => (fin (s 0).2, shift s)) s) (Law (invNormalPDF 2 3)) := by
  have h1 : UvNormal.new (fin 1) (fin 4) = _ := UvNormal.new_ok.2 ⟨show (0 : F64) < fin 4 from fin_lt_fin.2 (by norm_num), rfl⟩
  have h2 : InvNormal.new (fin 2) (fin 3) = _ := InvNormal.new_ok.2 ⟨show (0 : F64) < fin 2 from fin_lt_fin.2 (by norm_num), show (0 : F64) < fin 3 from fin_lt_fin.2 (by norm_num), rfl⟩
  exact ⟨_, _, h1, h2, C214_normal h1 (Is.fin 1) (Is.fin 4) stream_both.1, C214_inverse_normal h2 (Is.fin 2) (Is.fin 3) stream_both.1 stream_both.2⟩

/-- a mixture of two normals with weights 1/4, 3/4: the hypotheses of C216 are met -/
example : ∃ (D : Comp (ℝ × ℝ) Interval Unit F64 (ℕ → ℝ × ℝ)) (m : Mixture (ℝ × ℝ) Interval),
    (∀ c s, D.sample c s = (fin (c.1 + c.2 * (s 0).1), shift s)) ∧
    Mixture.new D [fin (1 / 4), fin (3 / 4)] [(0, 1), (5, 3)] = .ok (.ok m) ∧
    IID (Measure.infinitePi fun _ : ℕ => (gaussianReal 0 1).prod (unif 0 1)) F64.Is
      (fun s => m.sample D .release ⟨fun s : ℕ → ℝ × ℝ => (fin (s 0).2, shift s)⟩ s)
      (∑ i : Fin 2, ENNReal.ofReal ([1 / 4, 3 / 4] : List ℝ)[i] • (gaussianReal 0 1).map fun z => ![0, 5] i + ![1, 3] i * z) := by
  let D : Comp (ℝ × ℝ) Interval Unit F64 (ℕ → ℝ × ℝ) := ⟨fun _ => ⟨⊥, ⊤⟩, fun _ => (), fun _ => (0, 1), fun _ _ => ⟨0⟩, fun _ _ => 0, fun _ => 0, fun _ => 0,
    fun c s => (fin (c.1 + c.2 * (s 0).1), shift s)⟩
  have hw : List.Forall₂ F64.Is [fin (1 / 4), fin (3 / 4)] ([1 / 4, 3 / 4] : List ℝ) := .cons (Is.fin _) (.cons (Is.fin _) .nil)
  obtain ⟨m, hm⟩ : ∃ m, Mixture.new D [fin (1 / 4), fin (3 / 4)] [(0, 1), (5, 3)] = .ok (.ok m) := by
    refine (C32_new_iff D _ _ rfl (by simp)).2 ⟨?_, ?_⟩
    · intro p hp
      simp only [List.mem_cons, List.not_mem_nil, or_false] at hp
      rcases hp with rfl | rfl
      · exact ⟨_, Is.fin _, by norm_num, by norm_num⟩
      · exact ⟨_, Is.fin _, by norm_num, by norm_num⟩
    · rw [(((Is.sum hw).sub Is.one).abs).lt_iff (Is.lit _)]
      norm_num
  refine ⟨D, m, fun _ _ => rfl, hm, ?_⟩
  have hp : ∀ i : Fin 2, IsProbabilityMeasure ((gaussianReal 0 1).map fun z => (![0, 5] : Fin 2 → ℝ) i + (![1, 3] : Fin 2 → ℝ) i * z) := fun i =>
    Measure.isProbabilityMeasure_map (by fun_prop)
  refine (C216_mixture D .release hm hw (by norm_num) (g := ⟨fun s : ℕ → ℝ × ℝ => (fin (s 0).2, shift s)⟩) stream_both.2
    (ν := fun i : Fin 2 => (gaussianReal 0 1).map fun z => (![0, 5] : Fin 2 → ℝ) i + (![1, 3] : Fin 2 → ℝ) i * z) fun i c hc => ?_).2
  refine normal_renews stream_both.1 (by fun_prop) (fun s z hz => ⟨_, rfl, ?_⟩) fun s => rfl
  have hz' : (s 0).1 = z := (Is.fin _).eq hz
  rw [← hz']
  fin_cases i
  · cases hc; exact Is.fin _
  · cases hc; exact Is.fin _
end
end Rstat
