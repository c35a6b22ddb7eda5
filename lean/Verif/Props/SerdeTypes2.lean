import Verif.Props.SerdeTypes
import Verif.Props.Mixture
import Verif.Props.Normal2
import Verif.Props.Constructors

/-! Properties C225 and C226 for the parameter types that are not generated by `params!`: probabilities, simplex vectors, concentrations,
degenerate and discrete uniform, categorical, multinomial, the multivariate normals, and mixtures. -/
set_option linter.unusedSectionVars false
namespace Rstat
section
variable [FP]
open Spec

/-- the format of an array of floats -/
def Spec.floats {n : ℕ} (a : Fin n → F64) : Data := .seq (List.ofFn fun i => .f64 (a i))

theorem ser_arr {n : ℕ} {t : STy} (v : Fin n → t.Val) : (STy.arr n t).ser v = .seq (List.ofFn fun i => t.ser (v i)) := by
  change Data.seq ((serializeArray (ε := Empty) fun i => t.ser (v i)).2.filterMap Except.toOption) = _
  congr 1
  simp only [serializeArray, List.filterMap_map, List.ofFn_eq_map]
  rw [← List.filterMap_eq_map]; rfl

theorem fits_floats {n : ℕ} (v : Fin n → F64) : Fits (.arr n .f64) v := fun _ => trivial

/-- a `SimplexVector<K>` as the model keeps it -/
theorem simplex_rep {K : ℕ} {v : SimplexVector} (h : v.ps.length = K) : (⟨List.ofFn fun i : Fin K => v.ps.getD i .nan⟩ : SimplexVector) = v := by
  subst h
  ext1
  dsimp only
  apply List.ext_getElem (by simp)
  intro i h1 h2
  simp [List.getD_eq_getElem?_getD, h2]

/-- C225: a probability is written as its number and read back -/
theorem C225_probability (p : Probability) : Probability.codec.ser p = .f64 p.val ∧ Probability.codec.de (Probability.codec.ser p) = some p :=
  ⟨rfl, rfl⟩
/-- C225: a correlation is written as its number and read back -/
theorem C225_corr (r : F64) : Corr.codec.ser r = .f64 r ∧ Corr.codec.de (Corr.codec.ser r) = some r := ⟨rfl, rfl⟩
/-- C225: a simplex vector is written as the sequence of its entries and read back -/
theorem C225_simplex {K : ℕ} (v : SimplexVector) (h : v.ps.length = K) :
    (SimplexVector.codec K).ser v = .seq (v.ps.map .f64) ∧ (SimplexVector.codec K).de ((SimplexVector.codec K).ser v) = some v := by
  refine ⟨?_, Codec.de_ser' (SimplexVector.codec K) trivial v (simplex_rep h) (fits_floats _)⟩
  refine (ser_arr (n := K) (t := .f64) (fun i : Fin K => v.ps.getD i .nan)).trans ?_
  rw [show (List.ofFn fun i : Fin K => STy.ser .f64 (v.ps.getD i .nan)) = (List.ofFn fun i : Fin K => v.ps.getD i .nan).map Data.f64 by
    rw [List.map_ofFn]; rfl]
  exact congrArg (fun l => Data.seq (List.map Data.f64 l)) (congrArg SimplexVector.ps (simplex_rep h))
/-- C225: a data sequence is read as a simplex vector exactly when its first K elements are numbers -/
theorem C225_simplex_short {K : ℕ} (l : List F64) (h : l.length < K) : (SimplexVector.codec K).de (.seq (l.map .f64)) = none := by
  change ((deArr K deF64 (.seq (l.map .f64))).map _) = none
  unfold deArr
  dsimp only
  rw [show (l.map Data.f64).map (nextElement deF64) = l.map .ok by rw [List.map_map]; rfl, C31_short K l h]
  rfl
/-- C225: concentrations, and so the Dirichlet distribution -/
theorem C225_dirichlet {n : ℕ} (a : Fin n → F64) : (Concentrations.codec n).ser a = floats a ∧
    ((Concentrations.codec n).de ((Concentrations.codec n).ser a)).map Dirichlet.newUnchecked = some (Dirichlet.newUnchecked a) := by
  refine ⟨ser_arr (t := .f64) a, ?_⟩
  rw [Codec.de_ser' (Concentrations.codec n) trivial a rfl (fits_floats a)]; rfl
/-- C225: degenerate -/
theorem C225_degenerate : (∀ k : F64, DegenerateF.codec.ser k = .f64 k ∧
      (DegenerateF.codec.de (DegenerateF.codec.ser (DegenerateF.new k).params)).map DegenerateF.ofParams = some (DegenerateF.new k)) ∧
    ∀ k : ℤ, -2 ^ 63 ≤ k ∧ k < 2 ^ 63 → DegenerateI.codec.ser k = .i64 k ∧
      (DegenerateI.codec.de (DegenerateI.codec.ser (DegenerateI.new k).params)).map DegenerateI.ofParams = some (DegenerateI.new k) := by
  refine ⟨fun k => ⟨rfl, rfl⟩, fun k hk => ⟨rfl, ?_⟩⟩
  rw [Codec.de_ser' DegenerateI.codec trivial (DegenerateI.new k).params rfl hk]; rfl
/-- C225: discrete uniform, when the interval and the cardinality fit an i64 -/
theorem C225_uniform_discrete {pr : Profile} {lb : ℤ} {w : ℕ} (hf : UniformI.Fits lb w) (d : UniformI)
    (h : UniformI.new pr lb w = .ok (.ok d)) : UniformI.codec.ser d.params = .map [("lb", .i64 lb), ("width", .i64 w)] ∧
    (UniformI.codec.de (UniformI.codec.ser d.params)).map (UniformI.ofParams pr) = some (.ok d) := by
  obtain ⟨h1, h2⟩ := (C18_uniform_discrete_round_trip hf).2 d h
  obtain ⟨f1, f2, f3⟩ := UniformI.Fits.bounds hf
  have hfit : Spec.Fits UniformI.codec.t (UniformI.codec.enc d.params) := by
    rw [h1]
    change (-2 ^ 63 ≤ lb ∧ lb < 2 ^ 63) ∧ (-2 ^ 63 ≤ (w : ℤ) ∧ (w : ℤ) < 2 ^ 63)
    simp only [I64MIN, I64MAX] at f1 f2 f3
    omega
  rw [Codec.de_ser' UniformI.codec ⟨by decide, trivial, trivial⟩ _ rfl hfit, Option.map_some, h2]
  refine ⟨?_, rfl⟩
  rw [h1]; rfl
/-- C225: categorical -/
theorem C225_categorical {ps : List F64} {d : Categorical} (h : Categorical.new ps = .ok d) :
    (Categorical.codec ps.length).ser d.params = .map [("ps", .seq (ps.map .f64))] ∧
    ((Categorical.codec ps.length).de ((Categorical.codec ps.length).ser d.params)).map Categorical.ofParams = some d := by
  have e := (C18_categorical_round_trip h).1
  have hl : d.params.ps.length = ps.length := by rw [e]
  constructor
  · have := (C225_simplex d.params hl).1
    rw [e] at this
    exact congrArg (fun x => Data.map [("ps", x)]) this
  · rw [Codec.de_ser' (Categorical.codec ps.length) ⟨by simp [Flds.names], trivial⟩ _ (simplex_rep hl) (fits_floats _)]; rfl

theorem Multinomial.roundTrip {N : ℕ} : RoundTrip (fun a : ℕ × (Fin N → F64) => Multinomial.new a.1 a.2) Multinomial.params
    Multinomial.ofParams id (fun a => ∃ v, SimplexVector.new (List.ofFn a.2) = .ok v) :=
  roundTrip_of (fun a => ⟨a.1, a.2⟩) (fun _ _ => Multinomial.new_ok) (fun _ => rfl) fun _ => rfl
theorem BvNormal.roundTrip : RoundTrip (fun a : (Fin 2 → F64) × (Fin 2 → F64) × F64 => BvNormal.new a.1 a.2.1 a.2.2) id id
    (fun a => ⟨a.1, a.2.1, a.2.2⟩) (fun a => (∀ i, 0 < a.2.1 i) ∧ F64.fin (-1) ≤ a.2.2 ∧ a.2.2 ≤ F64.fin 1) :=
  roundTrip_of (fun a => ⟨a.1, a.2.1, a.2.2⟩) (fun _ _ => BvNormal.new_ok.trans (by simp only [and_assoc])) (fun _ => rfl) fun _ => rfl
theorem PairedNormal.roundTrip : RoundTrip (fun a : (Fin 2 → F64) × (Fin 2 → F64) => PairedNormal.new a.1 a.2) id id
    (fun a => ⟨a.1, a.2⟩) (fun a => ∀ i, 0 < a.2 i) :=
  roundTrip_of (fun a => ⟨a.1, a.2⟩) (fun _ _ => PairedNormal.new_ok) (fun _ => rfl) fun _ => rfl
theorem MvNormal.roundTrip [Lapack] {n : ℕ} : RoundTrip (fun a : (Fin n → F64) × (Fin n → Fin n → F64) => MvNormal.new a.1 a.2)
    MvNormal.params MvNormal.ofParams id (fun a => ∀ i j, 0 ≤ a.2 i j) :=
  roundTrip_of (fun a => MvNormal.newUnchecked a.1 a.2) (fun _ _ => MvNormal.new_ok) (fun _ => rfl) fun _ => rfl
theorem DiagNormal.roundTrip {n : ℕ} : RoundTrip (fun a : (Fin n → F64) × (Fin n → F64) => DiagNormal.new a.1 a.2)
    DiagNormal.params DiagNormal.ofParams id (fun a => ∀ i, 0 < a.2 i) :=
  roundTrip_of (fun a => DiagNormal.newUnchecked a.1 a.2) (fun _ _ => DiagNormal.new_ok) (fun _ => rfl) fun _ => rfl
theorem IsoNormal.roundTrip {n : ℕ} : RoundTrip (fun a : (Fin n → F64) × F64 => IsoNormal.new a.1 a.2)
    IsoNormal.params IsoNormal.ofParams id (fun a => 0 < a.2) :=
  roundTrip_of (fun a => IsoNormal.newUnchecked a.1 a.2) (fun _ _ => IsoNormal.new_ok) (fun _ => rfl) fun _ => rfl

/-- C225: multinomial -/
theorem C225_multinomial {N : ℕ} : Survives (Multinomial.codec N) (fun p => .map [("n", .u64 p.1), ("ps", floats p.2)]) (fun p => p.1 < 2 ^ 64)
    (fun a : ℕ × (Fin N → F64) => Multinomial.new a.1 a.2) Multinomial.params Multinomial.ofParams :=
  survives_of Multinomial.roundTrip ⟨by simp [Flds.names], trivial, trivial⟩ (fun _ => rfl) (fun p h => ⟨h, fits_floats p.2⟩) fun p =>
    congrArg (fun x => Data.map [("n", .u64 p.1), ("ps", x)]) (ser_arr (t := .f64) p.2)
/-- C225: bivariate normal -/
theorem C225_bivariate_normal : Survives BvNormal.codec (fun d => .map [("mu", floats d.mu), ("Sigma", .seq [floats d.S, .f64 d.rho])])
    (fun _ => True) (fun a : (Fin 2 → F64) × (Fin 2 → F64) × F64 => BvNormal.new a.1 a.2.1 a.2.2) id id :=
  survives_of BvNormal.roundTrip ⟨by decide, trivial, trivial, trivial⟩ (fun _ => rfl)
    (fun d _ => ⟨fits_floats d.mu, fits_floats d.S, trivial⟩) fun d => by
      have h1 := ser_arr (t := .f64) d.mu
      have h2 := ser_arr (t := .f64) d.S
      change Data.map [("mu", (STy.arr 2 .f64).ser d.mu), ("Sigma", .seq [(STy.arr 2 .f64).ser d.S, .f64 d.rho])] = _
      rw [h1, h2]; rfl
/-- C225: paired normal -/
theorem C225_paired_normal : Survives PairedNormal.codec (fun d => .map [("mu", floats d.mu), ("Sigma", floats d.S)])
    (fun _ => True) (fun a : (Fin 2 → F64) × (Fin 2 → F64) => PairedNormal.new a.1 a.2) id id :=
  survives_of PairedNormal.roundTrip ⟨by decide, trivial, trivial⟩ (fun _ => rfl)
    (fun d _ => ⟨fits_floats d.mu, fits_floats d.S⟩) fun d => by
      have h1 := ser_arr (t := .f64) d.mu
      have h2 := ser_arr (t := .f64) d.S
      change Data.map [("mu", (STy.arr 2 .f64).ser d.mu), ("Sigma", (STy.arr 2 .f64).ser d.S)] = _
      rw [h1, h2]; rfl
/-- C225: multivariate normal -/
theorem C225_multivariate_normal [Lapack] {n : ℕ} : Survives (MvNormal.codec n)
    (fun p => .map [("mu", floats p.1), ("Sigma", .seq (List.ofFn fun i => floats (p.2 i)))])
    (fun _ => True) (fun a : (Fin n → F64) × (Fin n → Fin n → F64) => MvNormal.new a.1 a.2) MvNormal.params MvNormal.ofParams :=
  survives_of MvNormal.roundTrip ⟨by simp [Flds.names], trivial, trivial⟩ (fun _ => rfl)
    (fun p _ => ⟨fits_floats p.1, fun i => fits_floats (p.2 i)⟩) fun p => by
      have h1 := ser_arr (t := .f64) p.1
      have h2 := ser_arr (t := .arr n .f64) p.2
      have h3 := fun i => ser_arr (t := .f64) (p.2 i)
      change Data.map [("mu", (STy.arr n .f64).ser p.1), ("Sigma", (STy.arr n (.arr n .f64)).ser p.2)] = _
      rw [h1, h2]; simp only [h3]; rfl
/-- C225: normal with a diagonal covariance -/
theorem C225_diagonal_normal {n : ℕ} : Survives (DiagNormal.codec n) (fun p => .map [("mu", floats p.1), ("Sigma", floats p.2)])
    (fun _ => True) (fun a : (Fin n → F64) × (Fin n → F64) => DiagNormal.new a.1 a.2) DiagNormal.params DiagNormal.ofParams :=
  survives_of DiagNormal.roundTrip ⟨by simp [Flds.names], trivial, trivial⟩ (fun _ => rfl)
    (fun p _ => ⟨fits_floats p.1, fits_floats p.2⟩) fun p => by
      have h1 := ser_arr (t := .f64) p.1
      have h2 := ser_arr (t := .f64) p.2
      change Data.map [("mu", (STy.arr n .f64).ser p.1), ("Sigma", (STy.arr n .f64).ser p.2)] = _
      rw [h1, h2]; rfl
/-- C225: isotropic normal -/
theorem C225_isotropic_normal {n : ℕ} : Survives (IsoNormal.codec n) (fun p => .map [("mu", floats p.1), ("Sigma", .f64 p.2)])
    (fun _ => True) (fun a : (Fin n → F64) × F64 => IsoNormal.new a.1 a.2) IsoNormal.params IsoNormal.ofParams :=
  survives_of IsoNormal.roundTrip ⟨by simp [Flds.names], trivial, trivial⟩ (fun _ => rfl)
    (fun p _ => ⟨fits_floats p.1, trivial⟩) fun p => by
      have h1 := ser_arr (t := .f64) p.1
      change Data.map [("mu", (STy.arr n .f64).ser p.1), ("Sigma", .f64 p.2)] = _
      rw [h1]; rfl
/-- C225: gradients of the univariate normal -/
theorem C225_normal_gradient (g : NGrad F64 F64) : UvNormal.gradCodec.ser g = .map [("mu", .f64 g.mu), ("Sigma", .f64 g.Sigma)] ∧
    UvNormal.gradCodec.de (UvNormal.gradCodec.ser g) = some g :=
  ⟨rfl, Codec.de_ser' UvNormal.gradCodec ⟨by decide, trivial, trivial⟩ g rfl ⟨trivial, trivial⟩⟩
/-- C225: a mixture's parameters, given that those of its components survive -/
theorem C225_mixture {P : Type} {N : ℕ} (c : Codec P) (hw : WF c.t) (m : MixtureParams P) (hN : m.ps.ps.length = N)
    (hc : ∀ p ∈ m.componentParams, c.dec (c.enc p) = p ∧ Fits c.t (c.enc p)) :
    (Mixture.codec N c).ser m = .map [("ps", .seq (m.ps.ps.map .f64)), ("component_params", .seq (m.componentParams.map c.ser))] ∧
    (Mixture.codec N c).de ((Mixture.codec N c).ser m) = some m := by
  constructor
  · have h1 := (C225_simplex m.ps hN).1
    change Data.map [("ps", (SimplexVector.codec N).ser m.ps), ("component_params", .seq ((m.componentParams.map c.enc).map (fun x => c.t.ser x)))] = _
    rw [h1, List.map_map]; rfl
  · refine Codec.de_ser' (Mixture.codec N c) ⟨by simp [Flds.names], trivial, hw⟩ m ?_ ⟨fits_floats _, ?_⟩
    · ext1
      · exact simplex_rep hN
      · change (m.componentParams.map c.enc).map c.dec = m.componentParams
        rw [List.map_map]
        exact (List.map_congr_left fun p hp => (hc p hp).1).trans (List.map_id _)
    · change ∀ x ∈ m.componentParams.map c.enc, Fits c.t x
      intro x hx
      obtain ⟨p, hp, rfl⟩ := List.mem_map.1 hx
      exact (hc p hp).2
/-! ### C226 -/

/-- C226: every number, in particular every invalid one, is read as a probability -/
theorem C226_probability_violated : (¬ ∀ data p, Probability.codec.de data = some p → p.isValid) ∧
    ∀ x : F64, (∀ p, Probability.new x ≠ .ok p) → ∃ data, Probability.codec.de data = some ⟨x⟩ :=
  ⟨fun h => not_isValid_nan (h (.f64 .nan) ⟨.nan⟩ rfl), fun x _ => ⟨.f64 x, rfl⟩⟩
/-- C226: a correlation is read unchecked -/
theorem C226_corr_violated : ∀ x : F64, ∃ data, Corr.codec.de data = some x := fun x => ⟨.f64 x, rfl⟩
/-- C226: any vector at all is read as a simplex vector -/
theorem C226_simplex_violated (ps : List F64) : ∃ data, (SimplexVector.codec ps.length).de data = some ⟨ps⟩ :=
  ⟨_, (C225_simplex ⟨ps⟩ rfl).2⟩
/-- C226: vectors accepted by `SimplexVector::new` are read as what it returns -/
theorem C226_simplex_partial (ps : List F64) (v : SimplexVector) (h : SimplexVector.new ps = .ok v) :
    (SimplexVector.codec ps.length).de (.seq (ps.map .f64)) = some v := by
  have e : v = ⟨ps⟩ := by
    unfold SimplexVector.new at h
    split at h
    · cases h
    · split at h <;> cases h; rfl
  subst e
  rw [← (C225_simplex ⟨ps⟩ rfl).1]; exact (C225_simplex ⟨ps⟩ rfl).2
/-- C226: categorical over any vector, including those `Categorical::new` refuses -/
theorem C226_categorical_violated (ps : List F64) (h : ∀ d, Categorical.new ps ≠ .ok d) :
    ∃ data d, ((Categorical.codec ps.length).de data).map Categorical.ofParams = some d ∧ d.params.ps = ps ∧
      ∀ ps', Categorical.new ps' ≠ .ok d := by
  refine ⟨(Categorical.codec ps.length).ser ⟨ps⟩, ⟨⟨ps⟩⟩, ?_, rfl, fun ps' hd => ?_⟩
  · rw [Codec.de_ser' (Categorical.codec ps.length) ⟨by simp [Flds.names], trivial⟩ _ (simplex_rep rfl) (fits_floats _)]; rfl
  · have := (C18_categorical_round_trip hd).1
    exact h _ (this ▸ hd)
/-- C226: Dirichlet distributions, none of which (for N > 0) its constructor returns, are read from data -/
theorem C226_dirichlet_violated {n : ℕ} (hn : 0 < n) (a : Fin n → F64) : (∀ d, Dirichlet.new a ≠ .ok d) ∧
    ∃ data, ((Concentrations.codec n).de data).map Dirichlet.newUnchecked = some (Dirichlet.newUnchecked a) :=
  ⟨fun d h => (C218_dirichlet_violated hn a).elim (fun e he => by have := he.symm.trans h; cases this), _, (C225_dirichlet a).2⟩
/-- C226: multinomial -/
theorem C226_multinomial_violated {N : ℕ} : ReadsInvalid (Multinomial.codec N) (fun p => p.1 < 2 ^ 64)
    (fun a : ℕ × (Fin N → F64) => Multinomial.new a.1 a.2) Multinomial.params Multinomial.ofParams id :=
  readsInvalid_of (c := Multinomial.codec N) Multinomial.roundTrip ⟨by simp [Flds.names], trivial, trivial⟩ (fun _ => rfl) (fun p h => ⟨h, fits_floats p.2⟩)
    (fun _ => rfl) Function.injective_id
/-- C226: bivariate normal -/
theorem C226_bivariate_normal_violated : ReadsInvalid BvNormal.codec (fun _ => True)
    (fun a : (Fin 2 → F64) × (Fin 2 → F64) × F64 => BvNormal.new a.1 a.2.1 a.2.2) id id (fun a => ⟨a.1, a.2.1, a.2.2⟩) :=
  readsInvalid_of (c := BvNormal.codec) BvNormal.roundTrip ⟨by decide, trivial, trivial, trivial⟩ (fun _ => rfl)
    (fun d _ => ⟨fits_floats d.mu, fits_floats d.S, trivial⟩) (fun _ => rfl) fun a b h => by
      have h1 := congrArg BvNormal.mu h; have h2 := congrArg BvNormal.S h; have h3 := congrArg BvNormal.rho h
      exact Prod.ext h1 (Prod.ext h2 h3)
/-- C226: paired normal -/
theorem C226_paired_normal_violated : ReadsInvalid PairedNormal.codec (fun _ => True)
    (fun a : (Fin 2 → F64) × (Fin 2 → F64) => PairedNormal.new a.1 a.2) id id (fun a => ⟨a.1, a.2⟩) :=
  readsInvalid_of (c := PairedNormal.codec) PairedNormal.roundTrip ⟨by decide, trivial, trivial⟩ (fun _ => rfl)
    (fun d _ => ⟨fits_floats d.mu, fits_floats d.S⟩) (fun _ => rfl) fun a b h => by
      have h1 := congrArg PairedNormal.mu h; have h2 := congrArg PairedNormal.S h
      exact Prod.ext h1 h2
/-- C226: multivariate normal -/
theorem C226_multivariate_normal_violated [Lapack] {n : ℕ} : ReadsInvalid (MvNormal.codec n) (fun _ => True)
    (fun a : (Fin n → F64) × (Fin n → Fin n → F64) => MvNormal.new a.1 a.2) MvNormal.params MvNormal.ofParams id :=
  readsInvalid_of (c := MvNormal.codec n) MvNormal.roundTrip ⟨by simp [Flds.names], trivial, trivial⟩ (fun _ => rfl)
    (fun p _ => ⟨fits_floats p.1, fun i => fits_floats (p.2 i)⟩) (fun _ => rfl) Function.injective_id
/-- C226: normal with a diagonal covariance -/
theorem C226_diagonal_normal_violated {n : ℕ} : ReadsInvalid (DiagNormal.codec n) (fun _ => True)
    (fun a : (Fin n → F64) × (Fin n → F64) => DiagNormal.new a.1 a.2) DiagNormal.params DiagNormal.ofParams id :=
  readsInvalid_of (c := DiagNormal.codec n) DiagNormal.roundTrip ⟨by simp [Flds.names], trivial, trivial⟩ (fun _ => rfl)
    (fun p _ => ⟨fits_floats p.1, fits_floats p.2⟩) (fun _ => rfl) Function.injective_id
/-- C226: isotropic normal -/
theorem C226_isotropic_normal_violated {n : ℕ} : ReadsInvalid (IsoNormal.codec n) (fun _ => True)
    (fun a : (Fin n → F64) × F64 => IsoNormal.new a.1 a.2) IsoNormal.params IsoNormal.ofParams id :=
  readsInvalid_of (c := IsoNormal.codec n) IsoNormal.roundTrip ⟨by simp [Flds.names], trivial, trivial⟩ (fun _ => rfl)
    (fun p _ => ⟨fits_floats p.1, trivial⟩) (fun _ => rfl) Function.injective_id
/-- C226: discrete uniform: reading never fails on a pair of i64 values, but turning the largest width into a distribution panics in a build with
overflow checks -/
theorem C226_uniform_discrete_violated (lb : ℤ) (hl : -2 ^ 63 ≤ lb ∧ lb < 2 ^ 63) :
    ∃ data p, UniformI.codec.de data = some p ∧ UniformI.ofParams .debug p = .error .overflow := by
  refine ⟨UniformI.codec.ser (lb, 2 ^ 63 - 1), (lb, 2 ^ 63 - 1),
    Codec.de_ser' UniformI.codec ⟨by decide, trivial, trivial⟩ (lb, 2 ^ 63 - 1) rfl ⟨hl, ?_⟩, ?_⟩
  · change (-2 ^ 63 : ℤ) ≤ 2 ^ 63 - 1 ∧ (2 ^ 63 - 1 : ℤ) < 2 ^ 63
    norm_num
  unfold UniformI.ofParams i64chk
  norm_num [I64MIN, I64MAX]
  rfl
/-- C226: a mixture whose data holds fewer component parameters than weights is read, and turning it into a mixture is undefined behaviour; with
more component parameters than weights it panics -/
theorem C226_mixture_violated {C S P X σ : Type} [Support S] (D : Comp C S P X σ) (c : Codec P) (hw : WF c.t) (ps : List F64) (cps : List P)
    (hc : ∀ p ∈ cps, c.dec (c.enc p) = p ∧ Fits c.t (c.enc p)) :
    ∃ data m, (Mixture.codec ps.length c).de data = some m ∧
      (cps.length < ps.length → Mixture.ofParams D m = .undefinedBehaviour) ∧ (ps.length < cps.length → Mixture.ofParams D m = .panic .index) := by
  refine ⟨_, _, (C225_mixture c hw ⟨⟨ps⟩, cps⟩ rfl hc).2, fun h => ?_, fun h => ?_⟩
  · exact C37_too_few_ub D _ h
  · exact C37_too_many_panics D _ h
end

/-! ### non-vacuity -/
section
open F64
attribute [local instance] exactFP exactFP_exact
/-- reading `{"gamma": 2, "note": 7, "x0": 1}` gives Cauchy(1, 2): fields in another order, an unknown one between them, integers for floats -/
example : Cauchy.codec.de (.map [("gamma", .f64 (fin 2)), ("note", .u64 7), ("x0", .f64 (fin 1))]) = some (fin 1, fin 2) := by
  have h := C225_field_order (.cons "x0" (.newtype .f64) (.one "gamma" (.newtype .f64))) ⟨by decide, trivial, trivial⟩ (fin 1, fin 2)
    ⟨trivial, trivial⟩ [("note", .u64 7)] [("gamma", .f64 (fin 2)), ("note", .u64 7), ("x0", .f64 (fin 1))] (by simp [Flds.names])
    (by
      change List.Perm _ [("x0", Data.f64 (fin 1)), ("gamma", .f64 (fin 2)), ("note", .u64 7)]
      exact ((List.Perm.swap _ _ _).cons _).trans (List.Perm.swap _ _ _))
  exact congrArg (Option.map id) h
/-- a missing field is refused -/
example : Cauchy.codec.de (.map [("gamma", .f64 (fin 2))]) = none := by
  rw [Option.eq_none_iff_forall_ne_some]
  intro p hp
  obtain ⟨v, hv, -⟩ := Option.map_eq_some_iff.1 hp
  have := C225_exactly_once (.cons "x0" (.newtype .f64) (.one "gamma" (.newtype .f64))) ⟨by decide, trivial, trivial⟩ _ v hv "x0" (by simp [Flds.names])
  simp at this
/-- an exponential of negative rate is read, though `Exponential::new` refuses it -/
example : ∃ data d, (Exponential.codec.de data).map Exponential.ofParams = some d ∧ d.params = fin (-1) ∧ ∀ a, Exponential.new a ≠ .ok d :=
  C226_exponential_violated.2 (fin (-1)) trivial fun _ h => absurd (Exponential.new_ok.1 h).1 (fun h => by
    have := (Is.lt_iff Is.zero (Is.fin (-1))).1 h; norm_num at this)
/-- a valid rate -/
example : ∃ d, Exponential.new (fin 1) = .ok d := ⟨_, Exponential.new_ok.2 ⟨lt_of_pos one_pos (Is.fin 1), rfl⟩⟩
/-- a two-component mixture of exponentials written with one component missing -/
example {σ : Type} (D : Comp Exponential Interval F64 F64 σ) :
    ∃ data m, (Mixture.codec 2 Exponential.codec).de data = some m ∧ Mixture.ofParams D m = .undefinedBehaviour := by
  obtain ⟨data, m, h, h1, -⟩ := C226_mixture_violated D Exponential.codec ⟨by decide, trivial⟩ [fin (1 / 2), fin (1 / 2)] [fin 1]
    (fun p _ => ⟨rfl, trivial⟩)
  exact ⟨data, m, h, h1 (by simp)⟩
end
end Rstat
