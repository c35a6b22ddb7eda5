import Verif.Spec.Repeat
import Verif.Lemmas.Samplers2
import Verif.Props.Traits

/-! Composition of randomised computations that renew their source; a source that behaves as documented for ever exists. -/
namespace Rstat.Spec
open MeasureTheory ProbabilityTheory Set Filter Topology
set_option linter.unusedSectionVars false

section
variable {σ V W V' W' : Type} [MeasurableSpace σ] [MeasurableSpace W] [MeasurableSpace W'] {P : Measure σ}

theorem Renews.marginal [IsProbabilityMeasure P] {μ : Measure W} [IsProbabilityMeasure μ] {Y : σ → W} {S : σ → σ} (hY : Measurable Y)
    (hS : Measurable S) (h : P.map (fun s => (Y s, S s)) = μ.prod P) : P.map S = P ∧ P.map Y = μ := by
  constructor
  · have : S = Prod.snd ∘ fun s => (Y s, S s) := rfl
    rw [this, ← Measure.map_map measurable_snd (hY.prodMk hS), h, Measure.map_snd_prod, measure_univ, one_smul]
  · have : Y = Prod.fst ∘ fun s => (Y s, S s) := rfl
    rw [this, ← Measure.map_map measurable_fst (hY.prodMk hS), h, Measure.map_fst_prod, measure_univ, one_smul]

/-- post-processing a draw -/
theorem Renews.map [IsProbabilityMeasure P] {R : V → W → Prop} {X : σ → Except Panic V × σ} {μ : Measure W} [IsProbabilityMeasure μ]
    (h : Renews P R X μ) {R' : V' → W' → Prop} {T : W → W'} (hT : Measurable T) {t : V → V'} {A : Set W} (hA : MeasurableSet A)
    (hμ : μ Aᶜ = 0) (ht : ∀ x u, u ∈ A → R x u → R' (t x) (T u)) {Z : σ → Except Panic V' × σ}
    (hZ : ∀ s x, (X s).1 = .ok x → (Z s).1 = .ok (t x)) (hZ2 : ∀ s, (Z s).2 = (X s).2) : Renews P R' Z (μ.map T) := by
  obtain ⟨Y, S, hY, hX, e, hm⟩ := h
  have hm2 := (Renews.marginal hY hX hm).2
  refine ⟨T ∘ Y, S, hT.comp hY, hX, ?_, ?_⟩
  · rw [← hm2, Measure.map_apply hY hA.compl] at hμ
    have : ∀ᵐ s ∂P, Y s ∈ A := by rw [ae_iff]; exact hμ
    filter_upwards [e, this] with s hs hsA
    obtain ⟨h0, x, hx, h1⟩ := hs
    exact ⟨(hZ2 s).trans h0, t x, hZ s x hx, ht x _ hsA h1⟩
  · have : (fun s => ((T ∘ Y) s, S s)) = Prod.map T id ∘ fun s => (Y s, S s) := rfl
    rw [this, ← Measure.map_map (by fun_prop) (hY.prodMk hX), hm, ← Measure.map_prod_map _ _ hT measurable_id, Measure.map_id]

/-- one computation after another, independent of the first value -/
theorem Renews.pair [IsProbabilityMeasure P] {R : V → W → Prop} {R' : V' → W' → Prop} {X : σ → Except Panic V × σ}
    {Z : σ → Except Panic V' × σ} {μ : Measure W} {ν : Measure W'} [IsProbabilityMeasure μ] [IsProbabilityMeasure ν]
    (h : Renews P R X μ) (h' : Renews P R' Z ν) {B : σ → Except Panic (V × V') × σ}
    (hB : ∀ s x y, (X s).1 = .ok x → (Z (X s).2).1 = .ok y → (B s).1 = .ok (x, y)) (hB2 : ∀ s, (B s).2 = (Z (X s).2).2) :
    Renews P (fun v w => R v.1 w.1 ∧ R' v.2 w.2) B (μ.prod ν) := by
  obtain ⟨Y, S, hY, hX, e, hm⟩ := h
  obtain ⟨Y', S', hY', hZ, e', hm'⟩ := h'
  have hs := (Renews.marginal hY hX hm).1
  refine ⟨fun s => (Y s, Y' (S s)), fun s => S' (S s), hY.prodMk (hY'.comp hX), hZ.comp hX, ?_, ?_⟩
  · have e'' : ∀ᵐ s ∂P, (Z (S s)).2 = S' (S s) ∧ ∃ x, (Z (S s)).1 = .ok x ∧ R' x (Y' (S s)) := by
      rw [← hs] at e'
      exact ae_of_ae_map hX.aemeasurable e'
    filter_upwards [e, e''] with s hs hs'
    obtain ⟨h0, x, hx, h1⟩ := hs
    obtain ⟨h0', y, hy, h2⟩ := hs'
    rw [← h0] at hy h0'
    exact ⟨by rw [hB2, h0', h0], (x, y), hB s x y hx hy, h1, h2⟩
  · have : (fun s => ((Y s, Y' (S s)), S' (S s))) =
        (fun q : W × W' × σ => ((q.1, q.2.1), q.2.2)) ∘ Prod.map id (fun s => (Y' s, S' s)) ∘ fun s => (Y s, S s) := rfl
    rw [this, ← Measure.map_map (by fun_prop) (by fun_prop), ← Measure.map_map (by fun_prop) (hY.prodMk hX), hm,
      ← Measure.map_prod_map _ _ measurable_id (hY'.prodMk hZ), Measure.map_id, hm']
    exact (measurePreserving_prodAssoc μ ν P).symm.map_eq

theorem snoc_law {n : ℕ} {W : Type} [MeasurableSpace W] (μ : ℕ → Measure W) [∀ k, IsProbabilityMeasure (μ k)] :
    ((Measure.pi fun i : Fin n => μ i).prod (μ n)).map (fun q => (Fin.snoc q.1 q.2 : Fin (n + 1) → W)) = Measure.pi fun i : Fin (n + 1) => μ i := by
  have hms : Measurable fun q : (Fin n → W) × W => (Fin.snoc q.1 q.2 : Fin (n + 1) → W) := by
    refine measurable_pi_iff.2 fun i => ?_
    refine Fin.lastCases ?_ (fun j => ?_) i
    · simpa using measurable_snd
    · simp only [Fin.snoc_castSucc]; fun_prop
  refine (Measure.pi_eq fun s hs => ?_).symm
  rw [Measure.map_apply hms (MeasurableSet.univ_pi hs)]
  have : (fun q : (Fin n → W) × W => (Fin.snoc q.1 q.2 : Fin (n + 1) → W)) ⁻¹' univ.pi s =
      (univ.pi fun j : Fin n => s j.castSucc) ×ˢ s (Fin.last n) := by
    ext q
    simp only [mem_preimage, Set.mem_pi, mem_univ, true_imp_iff, mem_prod, Fin.forall_fin_succ', Fin.snoc_castSucc, Fin.snoc_last]
  rw [this, Measure.prod_prod, Measure.pi_pi, Fin.prod_univ_castSucc]
  simp

/-- a sequence of computations, each renewing the source -/
theorem renews_seq [IsProbabilityMeasure P] {R : V → W → Prop} {X : ℕ → σ → Except Panic V × σ} {μ : ℕ → Measure W}
    [∀ k, IsProbabilityMeasure (μ k)] (n : ℕ) (h : ∀ k < n, Renews P R (X k) (μ k)) (st : ℕ → σ → σ) (h0 : ∀ s, st 0 s = s)
    (h1 : ∀ k < n, ∀ s, st (k + 1) s = (X k (st k s)).2) :
    ∃ (Y : σ → Fin n → W) (S : σ → σ), Measurable Y ∧ Measurable S ∧
      (∀ᵐ s ∂P, st n s = S s ∧ ∀ i : Fin n, ∃ x, (X i (st i s)).1 = .ok x ∧ R x (Y s i)) ∧
      P.map (fun s => (Y s, S s)) = (Measure.pi fun i : Fin n => μ i).prod P := by
  induction n with
  | zero =>
    refine ⟨fun _ => Fin.elim0, id, measurable_const, measurable_id, Eventually.of_forall fun s => ⟨h0 s, fun i => i.elim0⟩, ?_⟩
    rw [Measure.pi_of_empty (x := Fin.elim0), Measure.dirac_prod]
    rfl
  | succ n ih =>
    obtain ⟨Y, S, hY, hst, e, hm⟩ := ih (fun k hk => h k (by omega)) (fun k hk => h1 k (by omega))
    obtain ⟨Z, S', hZ, hX, e', hm'⟩ := h n (by omega)
    have hs := (Renews.marginal hY hst hm).1
    have hms : Measurable fun q : (Fin n → W) × W => (Fin.snoc q.1 q.2 : Fin (n + 1) → W) := by
      refine measurable_pi_iff.2 fun i => ?_
      refine Fin.lastCases ?_ (fun j => ?_) i
      · simpa using measurable_snd
      · simp only [Fin.snoc_castSucc]; fun_prop
    refine ⟨fun s => Fin.snoc (Y s) (Z (S s)), fun s => S' (S s), hms.comp (hY.prodMk (hZ.comp hst)), hX.comp hst, ?_, ?_⟩
    · have e'' : ∀ᵐ s ∂P, (X n (S s)).2 = S' (S s) ∧ ∃ x, (X n (S s)).1 = .ok x ∧ R x (Z (S s)) := by
        rw [← hs] at e'
        exact ae_of_ae_map hst.aemeasurable e'
      filter_upwards [e, e''] with s a b
      obtain ⟨a0, a⟩ := a
      rw [← a0] at b
      obtain ⟨b0, b⟩ := b
      refine ⟨by rw [h1 n (by omega), b0, a0], ?_⟩
      refine Fin.lastCases ?_ (fun j => ?_)
      · rw [a0] at b; simpa [a0] using b
      · simpa using a j
    · have : (fun s => ((Fin.snoc (Y s) (Z (S s)) : Fin (n + 1) → W), S' (S s))) =
          Prod.map (fun q : (Fin n → W) × W => (Fin.snoc q.1 q.2 : Fin (n + 1) → W)) id ∘
          (fun q : (Fin n → W) × W × σ => ((q.1, q.2.1), q.2.2)) ∘ Prod.map id (fun s => (Z s, S' s)) ∘ fun s => (Y s, S s) := rfl
      have ha : Measurable fun q : (Fin n → W) × W × σ => ((q.1, q.2.1), q.2.2) := by fun_prop
      rw [this, ← Measure.map_map (hms.prodMap measurable_id) (ha.comp ((measurable_id.prodMap (hZ.prodMk hX)).comp (hY.prodMk hst))),
        ← Measure.map_map ha ((measurable_id.prodMap (hZ.prodMk hX)).comp (hY.prodMk hst)),
        ← Measure.map_map (measurable_id.prodMap (hZ.prodMk hX)) (hY.prodMk hst), hm,
        ← Measure.map_prod_map _ _ measurable_id (hZ.prodMk hX), Measure.map_id, hm']
      have := (measurePreserving_prodAssoc (Measure.pi fun i : Fin n => μ i) (μ n) P).symm.map_eq
      change Measure.map (fun q : (Fin n → W) × W × σ => ((q.1, q.2.1), q.2.2)) _ = _ at this
      rw [this, ← Measure.map_prod_map _ _ hms measurable_id, Measure.map_id, snoc_law]

/-- successive calls of a computation that renews its source are independent -/
theorem Renews.iid [IsProbabilityMeasure P] {R : V → W → Prop} {X : σ → Except Panic V × σ} {μ : Measure W} [IsProbabilityMeasure μ]
    (h : Renews P R X μ) : IID P R X μ := by
  intro n
  obtain ⟨Y, S, hY, hst, e, hm⟩ := renews_seq (R := R) (X := fun _ => X) (μ := fun _ => μ) n (fun _ _ => h) (fun k s => stateAfter X k s)
    (fun _ => rfl) (fun k _ s => by simp only [stateAfter, Function.iterate_succ', Function.comp_apply])
  refine ⟨Y, hY, ?_, ?_⟩
  · filter_upwards [e] with s hs
    obtain ⟨-, hs⟩ := hs
    choose xs h1 h2 using hs
    refine ⟨xs, ?_, h2⟩
    rw [(C24_sample_n X n s).1]
    refine List.ext_getElem (by simp) fun i h3 h4 => ?_
    simp only [List.getElem_map, List.getElem_range, List.getElem_ofFn]
    exact h1 ⟨i, by simpa using h3⟩
  · exact (Renews.marginal hY hst hm).2
end

/-! ### existence -/
section
variable {T : Type} [MeasurableSpace T]

/-- the stream without its first element -/
def shift (s : ℕ → T) : ℕ → T := fun n => s (n + 1)

theorem shift_measurable : Measurable (shift : (ℕ → T) → ℕ → T) := measurable_pi_iff.2 fun n => measurable_pi_apply (n + 1)

/-- the first element of a stream of independent values is independent of the rest, which has the law of the whole stream -/
theorem stream_split (ν : Measure T) [IsProbabilityMeasure ν] :
    (Measure.infinitePi fun _ : ℕ => ν).map (fun s => (s 0, shift s)) = ν.prod (Measure.infinitePi fun _ => ν) := by
  set Q := Measure.infinitePi fun _ : ℕ => ν
  have hc : Measurable fun q : T × (ℕ → T) => (fun n => Nat.casesOn n q.1 q.2 : ℕ → T) := by
    refine measurable_pi_iff.2 fun n => ?_
    cases n with
    | zero => exact measurable_fst
    | succ n => exact (measurable_pi_apply n).comp measurable_snd
  have key : (ν.prod Q).map (fun q : T × (ℕ → T) => (fun n => Nat.casesOn n q.1 q.2 : ℕ → T)) = Q := by
    refine Measure.eq_infinitePi _ fun I t ht => ?_
    classical
    rw [Measure.map_apply hc (MeasurableSet.pi I.countable_toSet fun i _ => ht i)]
    set J : Finset ℕ := (I.erase 0).image Nat.pred
    have hJ : ∀ k, k ∈ J ↔ k + 1 ∈ I := fun k => by
      simp only [J, Finset.mem_image, Finset.mem_erase]
      constructor
      · rintro ⟨m, ⟨h1, h2⟩, rfl⟩
        cases m with
        | zero => exact absurd rfl h1
        | succ m => exact h2
      · exact fun h => ⟨k + 1, ⟨by omega, h⟩, rfl⟩
    have : (fun q : T × (ℕ → T) => (fun n => Nat.casesOn n q.1 q.2 : ℕ → T)) ⁻¹' Set.pi I t =
        (if 0 ∈ I then t 0 else univ) ×ˢ Set.pi J fun k => t (k + 1) := by
      ext q
      simp only [mem_preimage, Set.mem_pi, mem_prod, Finset.mem_coe]
      constructor
      · intro h
        refine ⟨?_, fun k hk => h (k + 1) ((hJ k).1 hk)⟩
        split_ifs with h0
        · exact h 0 h0
        · trivial
      · rintro ⟨a, b⟩ i hi
        cases i with
        | zero => rw [if_pos hi] at a; exact a
        | succ k => exact b k ((hJ k).2 hi)
    rw [this, Measure.prod_prod, Measure.infinitePi_pi _ fun i _ => ht (i + 1)]
    have e : ∏ k ∈ J, ν (t (k + 1)) = ∏ i ∈ I.erase 0, ν (t i) := by
      refine Finset.prod_bij (fun k _ => k + 1) (fun k hk => Finset.mem_erase.2 ⟨by omega, (hJ k).1 hk⟩) (fun a _ b _ h => by omega)
        (fun b hb => ?_) fun _ _ => rfl
      obtain ⟨h1, h2⟩ := Finset.mem_erase.1 hb
      cases b with
      | zero => exact absurd rfl h1
      | succ m => exact ⟨m, (hJ m).2 h2, rfl⟩
    rw [e]
    split_ifs with h0
    · exact Finset.mul_prod_erase I (fun i => ν (t i)) h0
    · rw [measure_univ, one_mul, Finset.erase_eq_of_notMem h0]
  conv_lhs => rw [← key]
  rw [Measure.map_map (by exact (measurable_pi_apply 0).prodMk shift_measurable) hc]
  exact Measure.map_id

/-- reading a function of the first element of the stream -/
theorem stream_renews (ν : Measure T) [IsProbabilityMeasure ν] {V W : Type} [MeasurableSpace W] {R : V → W → Prop} {f : T → W} (hf : Measurable f)
    {v : T → V} (hv : ∀ t, R (v t) (f t)) {X : (ℕ → T) → Except Panic V × (ℕ → T)} (hX : ∀ s, X s = (.ok (v (s 0)), shift s)) :
    Renews (Measure.infinitePi fun _ : ℕ => ν) R X (ν.map f) := by
  refine ⟨fun s => f (s 0), shift, hf.comp (measurable_pi_apply 0), shift_measurable,
    Eventually.of_forall fun s => ⟨by rw [hX], v (s 0), by rw [hX], hv _⟩, ?_⟩
  have : (fun s : ℕ → T => (f (s 0), shift s)) = Prod.map f id ∘ fun s => (s 0, shift s) := rfl
  rw [this, ← Measure.map_map (hf.prodMap measurable_id) ((measurable_pi_apply 0).prodMk shift_measurable), stream_split,
    ← Measure.map_prod_map _ _ hf measurable_id, Measure.map_id]
end

/-- the source that reads a fresh tape for every draw -/
noncomputable def streamSrc : RandSrc (ℕ → Tape) where
  draw c s := (F64.fin ((s 0).1 c), shift s)
  drawNat c s := ((s 0).2.1 c, shift s)
  drawInt a b s := ((s 0).2.2.1 (a, b), shift s)
  genBool p s := ((s 0).2.2.2 p, shift s)

/-- the measure of a countable type with the given masses -/
theorem eq_massMeasure {α : Type} [MeasurableSpace α] [MeasurableSingletonClass α] [Countable α] {m : Measure α} {p : α → ℝ}
    (h : ∀ k, m {k} = ENNReal.ofReal (p k)) : m = massMeasure p :=
  Measure.ext_of_singleton fun k => by rw [h, massMeasure_singleton]

/-- C212 is not vacuous: a source that behaves as documented for ever exists -/
theorem stream_regenerates : Regenerates streamSrc (Measure.infinitePi fun _ : ℕ => tapeLaw) := by
  have hp : IsProbabilityMeasure tapeLaw := tape_faithful.prob
  refine ⟨inferInstance, fun c μ h => ?_, fun c p h => ?_, fun a b h => ?_, fun a p ha h0 h1 => ?_⟩
  · obtain ⟨Y, hY, hi, hm⟩ := tape_faithful.real c μ h
    have : Y = fun t : Tape => t.1 c := funext fun t => (hi t).eq (F64.Is.fin _)
    rw [← hm]
    exact stream_renews tapeLaw hY (v := fun t => F64.fin (t.1 c)) (fun t => hi t) fun s => rfl
  · have hf : Measurable fun t : Tape => t.2.1 c := by fun_prop
    rw [← eq_massMeasure (m := tapeLaw.map fun t => t.2.1 c) fun k => by
      rw [Measure.map_apply hf (measurableSet_singleton k)]; exact tape_faithful.nat c p h k]
    exact stream_renews tapeLaw hf (v := fun t => t.2.1 c) (fun t => rfl) fun s => rfl
  · have hf : Measurable fun t : Tape => t.2.2.1 (a, b) := by fun_prop
    rw [← eq_massMeasure (m := tapeLaw.map fun t => t.2.2.1 (a, b)) fun k => by
      rw [Measure.map_apply hf (measurableSet_singleton k)]; exact tape_faithful.int a b h k]
    exact stream_renews tapeLaw hf (v := fun t => t.2.2.1 (a, b)) (fun t => rfl) fun s => rfl
  · have hf : Measurable fun t : Tape => t.2.2.2 a := by fun_prop
    rw [← eq_massMeasure (m := tapeLaw.map fun t => t.2.2.2 a) (p := bernPMF p) fun k => by
      rw [Measure.map_apply hf (measurableSet_singleton k)]
      obtain ⟨x, y⟩ := tape_faithful.bool a p ha h0 h1
      cases k
      · exact y
      · exact x]
    exact stream_renews tapeLaw hf (v := fun t => t.2.2.2 a) (fun t => rfl) fun s => rfl
end Rstat.Spec
