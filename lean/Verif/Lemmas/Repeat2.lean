import Verif.Lemmas.Repeat
import Verif.Model.Mixture

/-! Vectors of draws, choices among computations, and the existence of the sources of `Spec/Repeat.lean`. -/
namespace Rstat.Spec
open MeasureTheory ProbabilityTheory Set Filter Topology
set_option linter.unusedSectionVars false

section
variable {σ V W V' W' : Type} [MeasurableSpace σ] [MeasurableSpace W] [MeasurableSpace W'] {P : Measure σ}

/-- post-processing a draw, with a check of the value allowed -/
theorem Renews.map' [IsProbabilityMeasure P] {R : V → W → Prop} {X : σ → Except Panic V × σ} {μ : Measure W} [IsProbabilityMeasure μ]
    (h : Renews P R X μ) {R' : V' → W' → Prop} {T : W → W'} (hT : Measurable T) {A : Set W} (hA : MeasurableSet A)
    (hμ : μ Aᶜ = 0) {Z : σ → Except Panic V' × σ}
    (hZ : ∀ s x w, w ∈ A → (X s).1 = .ok x → R x w → (Z s).2 = (X s).2 ∧ ∃ y, (Z s).1 = .ok y ∧ R' y (T w)) :
    Renews P R' Z (μ.map T) := by
  obtain ⟨Y, S, hY, hX, e, hm⟩ := h
  have hm2 := (Renews.marginal hY hX hm).2
  refine ⟨T ∘ Y, S, hT.comp hY, hX, ?_, ?_⟩
  · rw [← hm2, Measure.map_apply hY hA.compl] at hμ
    have : ∀ᵐ s ∂P, Y s ∈ A := by rw [ae_iff]; exact hμ
    filter_upwards [e, this] with s hs hsA
    obtain ⟨h0, x, hx, h1⟩ := hs
    obtain ⟨h2, h3⟩ := hZ s x _ hsA hx h1
    exact ⟨h2.trans h0, h3⟩
  · have : (fun s => ((T ∘ Y) s, S s)) = Prod.map T id ∘ fun s => (Y s, S s) := rfl
    rw [this, ← Measure.map_map (by fun_prop) (hY.prodMk hX), hm, ← Measure.map_prod_map _ _ hT measurable_id, Measure.map_id]

/-- a computation of `n` draws followed by a function of them -/
theorem renews_vec [IsProbabilityMeasure P] {R : V → W → Prop} {X : ℕ → σ → V × σ} {μ : ℕ → Measure W} [∀ k, IsProbabilityMeasure (μ k)]
    {n : ℕ} (h : ∀ k < n, Renews P R (total (X k)) (μ k)) {st : ℕ → σ → σ} (h0 : ∀ s, st 0 s = s)
    (h1 : ∀ k < n, ∀ s, st (k + 1) s = (X k (st k s)).2) {R' : V' → W' → Prop} {T : (Fin n → W) → W'} (hT : Measurable T)
    {Z : σ → Except Panic V' × σ}
    (hZ : ∀ s (w : Fin n → W), (∀ i : Fin n, R (X i (st i s)).1 (w i)) → ∃ y, (Z s).1 = .ok y ∧ R' y (T w)) (hZ2 : ∀ s, (Z s).2 = st n s) :
    Renews P R' Z ((Measure.pi fun i : Fin n => μ i).map T) := by
  obtain ⟨Y, S, hY, hst, e, hm⟩ := renews_seq (R := R) (X := fun k => total (X k)) n h st h0 h1
  refine ⟨T ∘ Y, S, hT.comp hY, hst, ?_, ?_⟩
  · filter_upwards [e] with s hs
    obtain ⟨h0, hs⟩ := hs
    refine ⟨by rw [hZ2, h0], hZ s (Y s) fun i => ?_⟩
    obtain ⟨x, hx, hr⟩ := hs i
    cases hx; exact hr
  · have : (fun s => ((T ∘ Y) s, S s)) = Prod.map T id ∘ fun s => (Y s, S s) := rfl
    rw [this, ← Measure.map_map (by fun_prop) (hY.prodMk hst), hm, ← Measure.map_prod_map _ _ hT measurable_id, Measure.map_id]

/-- a computation chosen by the value of a first one -/
theorem Renews.choose [IsProbabilityMeasure P] {n : ℕ} {p : Fin n → ℝ} {X : σ → Except Panic ℕ × σ}
    (h : Renews P (fun (v : ℕ) (i : Fin n) => v = i) X (massMeasure p)) {R : V → W → Prop} {Z : Fin n → σ → Except Panic V × σ}
    {ν : Fin n → Measure W} [∀ i, IsProbabilityMeasure (ν i)] (h' : ∀ i, Renews P R (Z i) (ν i)) {B : σ → Except Panic V × σ}
    (hB : ∀ s (i : Fin n), (X s).1 = .ok (i : ℕ) → B s = Z i (X s).2) :
    Renews P R B (∑ i, ENNReal.ofReal (p i) • ν i) := by
  obtain ⟨Y, S, hY, hX, e, hm⟩ := h
  choose Y' S' hY' hZ e' hm' using h'
  have hs : P.map S = (massMeasure p univ) • P := by
    have : S = Prod.snd ∘ fun s => (Y s, S s) := rfl
    rw [this, ← Measure.map_map measurable_snd (hY.prodMk hX), hm, Measure.map_snd_prod]
  have hF : Measurable fun q : Fin n × σ => (Y' q.1 q.2, S' q.1 q.2) :=
    measurable_from_prod_countable_right fun i => (hY' i).prodMk (hZ i)
  refine ⟨fun s => Y' (Y s) (S s), fun s => S' (Y s) (S s), (measurable_fst.comp hF).comp (hY.prodMk hX),
    (measurable_snd.comp hF).comp (hY.prodMk hX), ?_, ?_⟩
  · have e'' : ∀ᵐ s ∂P, ∀ i, (Z i (S s)).2 = S' i (S s) ∧ ∃ x, (Z i (S s)).1 = .ok x ∧ R x (Y' i (S s)) := by
      have : ∀ᵐ s ∂(massMeasure p univ) • P, ∀ i, (Z i s).2 = S' i s ∧ ∃ x, (Z i s).1 = .ok x ∧ R x (Y' i s) :=
        Measure.ae_smul_measure (ae_all_iff.2 e') _
      rw [← hs] at this
      exact ae_of_ae_map hX.aemeasurable this
    filter_upwards [e, e''] with s h1 h2
    obtain ⟨h0, i, hi, hi'⟩ := h1
    rw [hB s (Y s) (by rw [hi, hi']), h0]
    exact h2 (Y s)
  · have : (fun s => (Y' (Y s) (S s), S' (Y s) (S s))) = (fun q : Fin n × σ => (Y' q.1 q.2, S' q.1 q.2)) ∘ fun s => (Y s, S s) := rfl
    rw [this, ← Measure.map_map hF (hY.prodMk hX), hm, massMeasure, Measure.prod_sum_left, Measure.map_sum hF.aemeasurable,
      Measure.sum_fintype]
    have e1 : ∀ i, Measure.map (fun q : Fin n × σ => (Y' q.1 q.2, S' q.1 q.2)) ((ENNReal.ofReal (p i) • Measure.dirac i).prod P) =
        ENNReal.ofReal (p i) • (ν i).prod P := fun i => by
      rw [Measure.prod_smul_left, Measure.map_smul, Measure.dirac_prod, Measure.map_map hF measurable_prodMk_left]
      exact congrArg _ (hm' i)
    simp only [e1]
    rw [← Measure.sum_fintype, ← Measure.sum_fintype, Measure.prod_sum_left]
    congr 1; funext i
    rw [Measure.prod_smul_left]
end

/-! ### existence -/

/-- reads successive elements of a stream of reals -/
def streamDraw (s : ℕ → ℝ) : F64 × (ℕ → ℝ) := (F64.fin (s 0), shift s)

theorem stream_normal : NormalSource ⟨streamDraw⟩ (Measure.infinitePi fun _ : ℕ => gaussianReal 0 1) :=
  ⟨inferInstance, by
    have := stream_renews (gaussianReal 0 1) (R := F64.Is) (f := id) measurable_id (v := F64.fin) (fun t => F64.Is.fin t)
      (X := total streamDraw) fun s => rfl
    rwa [Measure.map_id] at this⟩

theorem stream_uniform : UniformSource streamDraw (Measure.infinitePi fun _ : ℕ => unif 0 1) := by
  have : IsProbabilityMeasure (unif 0 1) := unif_prob (by norm_num)
  refine ⟨inferInstance, ?_⟩
  have := stream_renews (unif 0 1) (R := F64.Is) (f := id) measurable_id (v := F64.fin) (fun t => F64.Is.fin t)
      (X := total streamDraw) fun s => rfl
  rwa [Measure.map_id] at this
end Rstat.Spec
