import Verif.Model.Dist.Serde
import Verif.Props.Serde
import Verif.Props.RoundTrip

/-! Properties C225 and C226 at each parameter type. C225: what is written is read back, under the documented field names. C226: reading does not
apply the checks of the constructors. Everything here holds for every floating-point implementation. -/
set_option linter.unusedSectionVars false
namespace Rstat

/-- What is written has the given format, is read back unchanged, and a distribution made by its constructor is recovered from its written
parameters. `fits`: integers are within their 64-bit types. -/
def Spec.Survives [FP] {P A D E : Type} (c : Codec P) (format : P → Data) (fits : P → Prop) (new : A → Except E D) (params : D → P)
    (ofParams : P → D) : Prop :=
  (∀ p, c.ser p = format p) ∧ (∀ p, fits p → c.de (c.ser p) = some p) ∧
    ∀ a d, new a = .ok d → fits (params d) → (c.de (c.ser (params d))).map ofParams = some d
/-- A distribution read from data is one the constructor could have returned. -/
def Spec.ReadsChecked [FP] {P A D E : Type} (c : Codec P) (new : A → Except E D) (ofParams : P → D) : Prop :=
  ∀ data d, (c.de data).map ofParams = some d → ∃ a, new a = .ok d
/-- Every argument the constructor refuses is read from some data, and the distribution obtained is not a result of the constructor. -/
def Spec.ReadsInvalid [FP] {P A D E : Type} (c : Codec P) (fits : P → Prop) (new : A → Except E D) (params : D → P) (ofParams : P → D)
    (val : A → P) : Prop :=
  ∀ a, fits (val a) → (∀ d, new a ≠ .ok d) → ∃ data d, (c.de data).map ofParams = some d ∧ params d = val a ∧ ∀ a', new a' ≠ .ok d
/-- Data holding arguments the constructor accepts is read as the distribution the constructor returns. -/
def Spec.ReadsValid [FP] {P A D E : Type} (c : Codec P) (new : A → Except E D) (ofParams : P → D) (val : A → P) : Prop :=
  ∀ data a d, c.de data = some (val a) → new a = .ok d → (c.de data).map ofParams = some d

section
variable [FP]
open Spec

theorem Codec.de_ser' {P : Type} (c : Codec P) (hw : WF c.t) (p : P) (hof : c.dec (c.enc p) = p) (hf : Fits c.t (c.enc p)) :
    c.de (c.ser p) = some p := by
  unfold Codec.de Codec.ser
  rw [de_ser c.t hw _ hf, Option.map_some, hof]

theorem survives_of {P A D E : Type} {c : Codec P} {format : P → Data} {fits : P → Prop} {new : A → Except E D} {params : D → P}
    {ofParams : P → D} {val : A → P} {valid : A → Prop} (rt : RoundTrip new params ofParams val valid) (hw : WF c.t)
    (hof : ∀ p, c.dec (c.enc p) = p) (hf : ∀ p, fits p → Fits c.t (c.enc p)) (h : ∀ p, c.ser p = format p) :
    Survives c format fits new params ofParams :=
  ⟨h, fun p hp => c.de_ser' hw p (hof p) (hf p hp), fun a d hd hp => by
    rw [c.de_ser' hw _ (hof _) (hf _ hp), Option.map_some, ((rt a).2 d hd).2]⟩

theorem readsInvalid_of {P A D E : Type} {c : Codec P} {fits : P → Prop} {new : A → Except E D} {params : D → P}
    {ofParams : P → D} {val : A → P} {valid : A → Prop} (rt : RoundTrip new params ofParams val valid) (hw : WF c.t)
    (hof : ∀ p, c.dec (c.enc p) = p) (hf : ∀ p, fits p → Fits c.t (c.enc p)) (hp : ∀ p, params (ofParams p) = p) (hv : Function.Injective val) :
    ReadsInvalid c fits new params ofParams val := by
  refine fun a hfa ha => ⟨c.ser (val a), ofParams (val a), by rw [c.de_ser' hw _ (hof _) (hf _ hfa)]; rfl, hp _, fun a' h => ?_⟩
  have h1 := ((rt a').2 _ h).1
  rw [hp] at h1
  exact ha _ ((hv h1).symm ▸ h)

theorem not_checked_of {P A D E : Type} {c : Codec P} {fits : P → Prop} {new : A → Except E D} {params : D → P}
    {ofParams : P → D} {val : A → P} (h : ReadsInvalid c fits new params ofParams val) (a : A) (hf : fits (val a))
    (ha : ∀ d, new a ≠ .ok d) : ¬ ReadsChecked c new ofParams := by
  obtain ⟨data, d, h1, -, h3⟩ := h a hf ha
  exact fun hc => (hc data d h1).elim fun a' h' => h3 a' h'

theorem refused {P A D E : Type} {new : A → Except E D} {params : D → P}
    {ofParams : P → D} {val : A → P} {valid : A → Prop} (rt : RoundTrip new params ofParams val valid) {a : A} (h : ¬ valid a) (d : D) :
    new a ≠ .ok d := fun hd => h ((rt a).1.1 ⟨d, hd⟩)

theorem readsValid_of {P A D E : Type} {c : Codec P} {new : A → Except E D} {params : D → P}
    {ofParams : P → D} {val : A → P} {valid : A → Prop} (rt : RoundTrip new params ofParams val valid) : ReadsValid c new ofParams val :=
  fun _ a d h hd => by rw [h, Option.map_some, ← ((rt a).2 d hd).1, ((rt a).2 d hd).2]

/-- C225: arcsine -/
theorem C225_arcsine : Survives Arcsine.codec (fun p => .map [("a", .f64 p.1), ("w", .f64 p.2)]) (fun _ => True) (fun a : F64 × F64 => Arcsine.new a.1 a.2) Arcsine.params Arcsine.ofParams :=
  survives_of C18_arcsine_round_trip ⟨by decide, ⟨trivial, trivial⟩⟩ (fun _ => rfl) (fun _ h => ⟨trivial, trivial⟩) fun _ => rfl
/-- C226: arcsine: every refused argument is read -/
theorem C226_arcsine_violated : ¬ ReadsChecked Arcsine.codec (fun a : F64 × F64 => Arcsine.new a.1 a.2) Arcsine.ofParams ∧
    ReadsInvalid Arcsine.codec (fun _ => True) (fun a : F64 × F64 => Arcsine.new a.1 a.2) Arcsine.params Arcsine.ofParams id :=
  have h := readsInvalid_of (c := Arcsine.codec) (fits := fun _ => True) C18_arcsine_round_trip ⟨by decide, ⟨trivial, trivial⟩⟩ (fun _ => rfl) (fun _ h => ⟨trivial, trivial⟩) (fun _ => rfl) (Function.injective_id)
  ⟨not_checked_of h (.nan, .nan) (trivial) (refused C18_arcsine_round_trip (fun h => F64.not_lt_nan _ h)), h⟩
/-- C226: arcsine: accepted arguments give the constructor's result -/
theorem C226_arcsine_partial : ReadsValid Arcsine.codec (fun a : F64 × F64 => Arcsine.new a.1 a.2) Arcsine.ofParams id := readsValid_of C18_arcsine_round_trip
/-- C225: cauchy -/
theorem C225_cauchy : Survives Cauchy.codec (fun p => .map [("x0", .f64 p.1), ("gamma", .f64 p.2)]) (fun _ => True) (fun a : F64 × F64 => Cauchy.new a.1 a.2) Cauchy.params Cauchy.ofParams :=
  survives_of C18_cauchy_round_trip ⟨by decide, ⟨trivial, trivial⟩⟩ (fun _ => rfl) (fun _ h => ⟨trivial, trivial⟩) fun _ => rfl
/-- C226: cauchy: every refused argument is read -/
theorem C226_cauchy_violated : ¬ ReadsChecked Cauchy.codec (fun a : F64 × F64 => Cauchy.new a.1 a.2) Cauchy.ofParams ∧
    ReadsInvalid Cauchy.codec (fun _ => True) (fun a : F64 × F64 => Cauchy.new a.1 a.2) Cauchy.params Cauchy.ofParams id :=
  have h := readsInvalid_of (c := Cauchy.codec) (fits := fun _ => True) C18_cauchy_round_trip ⟨by decide, ⟨trivial, trivial⟩⟩ (fun _ => rfl) (fun _ h => ⟨trivial, trivial⟩) (fun _ => rfl) (Function.injective_id)
  ⟨not_checked_of h (.nan, .nan) (trivial) (refused C18_cauchy_round_trip (fun h => F64.not_lt_nan _ h)), h⟩
/-- C226: cauchy: accepted arguments give the constructor's result -/
theorem C226_cauchy_partial : ReadsValid Cauchy.codec (fun a : F64 × F64 => Cauchy.new a.1 a.2) Cauchy.ofParams id := readsValid_of C18_cauchy_round_trip
/-- C225: cosine -/
theorem C225_cosine : Survives Cosine.codec (fun p => .map [("mu", .f64 p.1), ("s", .f64 p.2)]) (fun _ => True) (fun a : F64 × F64 => Cosine.new a.1 a.2) Cosine.params Cosine.ofParams :=
  survives_of C18_cosine_round_trip ⟨by decide, ⟨trivial, trivial⟩⟩ (fun _ => rfl) (fun _ h => ⟨trivial, trivial⟩) fun _ => rfl
/-- C226: cosine: every refused argument is read -/
theorem C226_cosine_violated : ¬ ReadsChecked Cosine.codec (fun a : F64 × F64 => Cosine.new a.1 a.2) Cosine.ofParams ∧
    ReadsInvalid Cosine.codec (fun _ => True) (fun a : F64 × F64 => Cosine.new a.1 a.2) Cosine.params Cosine.ofParams id :=
  have h := readsInvalid_of (c := Cosine.codec) (fits := fun _ => True) C18_cosine_round_trip ⟨by decide, ⟨trivial, trivial⟩⟩ (fun _ => rfl) (fun _ h => ⟨trivial, trivial⟩) (fun _ => rfl) (Function.injective_id)
  ⟨not_checked_of h (.nan, .nan) (trivial) (refused C18_cosine_round_trip (fun h => F64.not_lt_nan _ h)), h⟩
/-- C226: cosine: accepted arguments give the constructor's result -/
theorem C226_cosine_partial : ReadsValid Cosine.codec (fun a : F64 × F64 => Cosine.new a.1 a.2) Cosine.ofParams id := readsValid_of C18_cosine_round_trip
/-- C225: exponential -/
theorem C225_exponential : Survives Exponential.codec (fun p => .map [("lambda", .f64 p)]) (fun _ => True) (fun a : F64 => Exponential.new a) Exponential.params Exponential.ofParams :=
  survives_of C18_exponential_round_trip ⟨by decide, trivial⟩ (fun _ => rfl) (fun _ h => trivial) fun _ => rfl
/-- C226: exponential: every refused argument is read -/
theorem C226_exponential_violated : ¬ ReadsChecked Exponential.codec (fun a : F64 => Exponential.new a) Exponential.ofParams ∧
    ReadsInvalid Exponential.codec (fun _ => True) (fun a : F64 => Exponential.new a) Exponential.params Exponential.ofParams id :=
  have h := readsInvalid_of (c := Exponential.codec) (fits := fun _ => True) C18_exponential_round_trip ⟨by decide, trivial⟩ (fun _ => rfl) (fun _ h => trivial) (fun _ => rfl) (Function.injective_id)
  ⟨not_checked_of h .nan (trivial) (refused C18_exponential_round_trip (fun h => F64.not_lt_nan _ h)), h⟩
/-- C226: exponential: accepted arguments give the constructor's result -/
theorem C226_exponential_partial : ReadsValid Exponential.codec (fun a : F64 => Exponential.new a) Exponential.ofParams id := readsValid_of C18_exponential_round_trip
/-- C225: frechet -/
theorem C225_frechet : Survives Frechet.codec (fun p => .map [("alpha", .f64 p)]) (fun _ => True) (fun a : F64 => Frechet.new a) Frechet.params Frechet.ofParams :=
  survives_of C18_frechet_round_trip ⟨by decide, trivial⟩ (fun _ => rfl) (fun _ h => trivial) fun _ => rfl
/-- C226: frechet: every refused argument is read -/
theorem C226_frechet_violated : ¬ ReadsChecked Frechet.codec (fun a : F64 => Frechet.new a) Frechet.ofParams ∧
    ReadsInvalid Frechet.codec (fun _ => True) (fun a : F64 => Frechet.new a) Frechet.params Frechet.ofParams id :=
  have h := readsInvalid_of (c := Frechet.codec) (fits := fun _ => True) C18_frechet_round_trip ⟨by decide, trivial⟩ (fun _ => rfl) (fun _ h => trivial) (fun _ => rfl) (Function.injective_id)
  ⟨not_checked_of h .nan (trivial) (refused C18_frechet_round_trip (fun h => F64.not_lt_nan _ h)), h⟩
/-- C226: frechet: accepted arguments give the constructor's result -/
theorem C226_frechet_partial : ReadsValid Frechet.codec (fun a : F64 => Frechet.new a) Frechet.ofParams id := readsValid_of C18_frechet_round_trip
/-- C225: gev -/
theorem C225_gev : Survives GeneralisedExtremeValue.codec (fun p => .map [("mu", .f64 p.1), ("sigma", .f64 p.2.1), ("zeta", .f64 p.2.2)]) (fun _ => True) (fun a : F64 × F64 × F64 => GeneralisedExtremeValue.new a.1 a.2.1 a.2.2) GeneralisedExtremeValue.params GeneralisedExtremeValue.ofParams :=
  survives_of C18_gev_round_trip ⟨by decide, ⟨trivial, trivial, trivial⟩⟩ (fun _ => rfl) (fun _ h => ⟨trivial, trivial, trivial⟩) fun _ => rfl
/-- C226: gev: every refused argument is read -/
theorem C226_gev_violated : ¬ ReadsChecked GeneralisedExtremeValue.codec (fun a : F64 × F64 × F64 => GeneralisedExtremeValue.new a.1 a.2.1 a.2.2) GeneralisedExtremeValue.ofParams ∧
    ReadsInvalid GeneralisedExtremeValue.codec (fun _ => True) (fun a : F64 × F64 × F64 => GeneralisedExtremeValue.new a.1 a.2.1 a.2.2) GeneralisedExtremeValue.params GeneralisedExtremeValue.ofParams id :=
  have h := readsInvalid_of (c := GeneralisedExtremeValue.codec) (fits := fun _ => True) C18_gev_round_trip ⟨by decide, ⟨trivial, trivial, trivial⟩⟩ (fun _ => rfl) (fun _ h => ⟨trivial, trivial, trivial⟩) (fun _ => rfl) (Function.injective_id)
  ⟨not_checked_of h (.nan, .nan, .nan) (trivial) (refused C18_gev_round_trip (fun h => F64.not_lt_nan _ h.2)), h⟩
/-- C226: gev: accepted arguments give the constructor's result -/
theorem C226_gev_partial : ReadsValid GeneralisedExtremeValue.codec (fun a : F64 × F64 × F64 => GeneralisedExtremeValue.new a.1 a.2.1 a.2.2) GeneralisedExtremeValue.ofParams id := readsValid_of C18_gev_round_trip
/-- C225: gpd -/
theorem C225_gpd : Survives GeneralisedPareto.codec (fun p => .map [("mu", .f64 p.1), ("sigma", .f64 p.2.1), ("zeta", .f64 p.2.2)]) (fun _ => True) (fun a : F64 × F64 × F64 => GeneralisedPareto.new a.1 a.2.1 a.2.2) GeneralisedPareto.params GeneralisedPareto.ofParams :=
  survives_of C18_gpd_round_trip ⟨by decide, ⟨trivial, trivial, trivial⟩⟩ (fun _ => rfl) (fun _ h => ⟨trivial, trivial, trivial⟩) fun _ => rfl
/-- C226: gpd: every refused argument is read -/
theorem C226_gpd_violated : ¬ ReadsChecked GeneralisedPareto.codec (fun a : F64 × F64 × F64 => GeneralisedPareto.new a.1 a.2.1 a.2.2) GeneralisedPareto.ofParams ∧
    ReadsInvalid GeneralisedPareto.codec (fun _ => True) (fun a : F64 × F64 × F64 => GeneralisedPareto.new a.1 a.2.1 a.2.2) GeneralisedPareto.params GeneralisedPareto.ofParams id :=
  have h := readsInvalid_of (c := GeneralisedPareto.codec) (fits := fun _ => True) C18_gpd_round_trip ⟨by decide, ⟨trivial, trivial, trivial⟩⟩ (fun _ => rfl) (fun _ h => ⟨trivial, trivial, trivial⟩) (fun _ => rfl) (Function.injective_id)
  ⟨not_checked_of h (.nan, .nan, .nan) (trivial) (refused C18_gpd_round_trip (fun h => F64.not_lt_nan _ h.2)), h⟩
/-- C226: gpd: accepted arguments give the constructor's result -/
theorem C226_gpd_partial : ReadsValid GeneralisedPareto.codec (fun a : F64 × F64 × F64 => GeneralisedPareto.new a.1 a.2.1 a.2.2) GeneralisedPareto.ofParams id := readsValid_of C18_gpd_round_trip
/-- C225: gumbel -/
theorem C225_gumbel : Survives Gumbel.codec (fun p => .map [("mu", .f64 p.1), ("beta", .f64 p.2)]) (fun _ => True) (fun a : F64 × F64 => Gumbel.new a.1 a.2) Gumbel.params Gumbel.ofParams :=
  survives_of C18_gumbel_round_trip ⟨by decide, ⟨trivial, trivial⟩⟩ (fun _ => rfl) (fun _ h => ⟨trivial, trivial⟩) fun _ => rfl
/-- C226: gumbel: every refused argument is read -/
theorem C226_gumbel_violated : ¬ ReadsChecked Gumbel.codec (fun a : F64 × F64 => Gumbel.new a.1 a.2) Gumbel.ofParams ∧
    ReadsInvalid Gumbel.codec (fun _ => True) (fun a : F64 × F64 => Gumbel.new a.1 a.2) Gumbel.params Gumbel.ofParams id :=
  have h := readsInvalid_of (c := Gumbel.codec) (fits := fun _ => True) C18_gumbel_round_trip ⟨by decide, ⟨trivial, trivial⟩⟩ (fun _ => rfl) (fun _ h => ⟨trivial, trivial⟩) (fun _ => rfl) (Function.injective_id)
  ⟨not_checked_of h (.nan, .nan) (trivial) (refused C18_gumbel_round_trip (fun h => F64.not_lt_nan _ h)), h⟩
/-- C226: gumbel: accepted arguments give the constructor's result -/
theorem C226_gumbel_partial : ReadsValid Gumbel.codec (fun a : F64 × F64 => Gumbel.new a.1 a.2) Gumbel.ofParams id := readsValid_of C18_gumbel_round_trip
/-- C225: kumaraswamy -/
theorem C225_kumaraswamy : Survives Kumaraswamy.codec (fun p => .map [("a", .f64 p.1), ("b", .f64 p.2)]) (fun _ => True) (fun a : F64 × F64 => Kumaraswamy.new a.1 a.2) Kumaraswamy.params Kumaraswamy.ofParams :=
  survives_of C18_kumaraswamy_round_trip ⟨by decide, ⟨trivial, trivial⟩⟩ (fun _ => rfl) (fun _ h => ⟨trivial, trivial⟩) fun _ => rfl
/-- C226: kumaraswamy: every refused argument is read -/
theorem C226_kumaraswamy_violated : ¬ ReadsChecked Kumaraswamy.codec (fun a : F64 × F64 => Kumaraswamy.new a.1 a.2) Kumaraswamy.ofParams ∧
    ReadsInvalid Kumaraswamy.codec (fun _ => True) (fun a : F64 × F64 => Kumaraswamy.new a.1 a.2) Kumaraswamy.params Kumaraswamy.ofParams id :=
  have h := readsInvalid_of (c := Kumaraswamy.codec) (fits := fun _ => True) C18_kumaraswamy_round_trip ⟨by decide, ⟨trivial, trivial⟩⟩ (fun _ => rfl) (fun _ h => ⟨trivial, trivial⟩) (fun _ => rfl) (Function.injective_id)
  ⟨not_checked_of h (.nan, .nan) (trivial) (refused C18_kumaraswamy_round_trip (fun h => F64.not_lt_nan _ h.2)), h⟩
/-- C226: kumaraswamy: accepted arguments give the constructor's result -/
theorem C226_kumaraswamy_partial : ReadsValid Kumaraswamy.codec (fun a : F64 × F64 => Kumaraswamy.new a.1 a.2) Kumaraswamy.ofParams id := readsValid_of C18_kumaraswamy_round_trip
/-- C225: laplace -/
theorem C225_laplace : Survives Laplace.codec (fun p => .map [("mu", .f64 p.1), ("b", .f64 p.2)]) (fun _ => True) (fun a : F64 × F64 => Laplace.new a.1 a.2) Laplace.params Laplace.ofParams :=
  survives_of C18_laplace_round_trip ⟨by decide, ⟨trivial, trivial⟩⟩ (fun _ => rfl) (fun _ h => ⟨trivial, trivial⟩) fun _ => rfl
/-- C226: laplace: every refused argument is read -/
theorem C226_laplace_violated : ¬ ReadsChecked Laplace.codec (fun a : F64 × F64 => Laplace.new a.1 a.2) Laplace.ofParams ∧
    ReadsInvalid Laplace.codec (fun _ => True) (fun a : F64 × F64 => Laplace.new a.1 a.2) Laplace.params Laplace.ofParams id :=
  have h := readsInvalid_of (c := Laplace.codec) (fits := fun _ => True) C18_laplace_round_trip ⟨by decide, ⟨trivial, trivial⟩⟩ (fun _ => rfl) (fun _ h => ⟨trivial, trivial⟩) (fun _ => rfl) (Function.injective_id)
  ⟨not_checked_of h (.nan, .nan) (trivial) (refused C18_laplace_round_trip (fun h => F64.not_lt_nan _ h)), h⟩
/-- C226: laplace: accepted arguments give the constructor's result -/
theorem C226_laplace_partial : ReadsValid Laplace.codec (fun a : F64 × F64 => Laplace.new a.1 a.2) Laplace.ofParams id := readsValid_of C18_laplace_round_trip
/-- C225: logistic -/
theorem C225_logistic : Survives Logistic.codec (fun p => .map [("mu", .f64 p.1), ("s", .f64 p.2)]) (fun _ => True) (fun a : F64 × F64 => Logistic.new a.1 a.2) Logistic.params Logistic.ofParams :=
  survives_of C18_logistic_round_trip ⟨by decide, ⟨trivial, trivial⟩⟩ (fun _ => rfl) (fun _ h => ⟨trivial, trivial⟩) fun _ => rfl
/-- C226: logistic: every refused argument is read -/
theorem C226_logistic_violated : ¬ ReadsChecked Logistic.codec (fun a : F64 × F64 => Logistic.new a.1 a.2) Logistic.ofParams ∧
    ReadsInvalid Logistic.codec (fun _ => True) (fun a : F64 × F64 => Logistic.new a.1 a.2) Logistic.params Logistic.ofParams id :=
  have h := readsInvalid_of (c := Logistic.codec) (fits := fun _ => True) C18_logistic_round_trip ⟨by decide, ⟨trivial, trivial⟩⟩ (fun _ => rfl) (fun _ h => ⟨trivial, trivial⟩) (fun _ => rfl) (Function.injective_id)
  ⟨not_checked_of h (.nan, .nan) (trivial) (refused C18_logistic_round_trip (fun h => F64.not_lt_nan _ h)), h⟩
/-- C226: logistic: accepted arguments give the constructor's result -/
theorem C226_logistic_partial : ReadsValid Logistic.codec (fun a : F64 × F64 => Logistic.new a.1 a.2) Logistic.ofParams id := readsValid_of C18_logistic_round_trip
/-- C225: pareto -/
theorem C225_pareto : Survives Pareto.codec (fun p => .map [("x_m", .f64 p.1), ("alpha", .f64 p.2)]) (fun _ => True) (fun a : F64 × F64 => Pareto.new a.1 a.2) Pareto.params Pareto.ofParams :=
  survives_of C18_pareto_round_trip ⟨by decide, ⟨trivial, trivial⟩⟩ (fun _ => rfl) (fun _ h => ⟨trivial, trivial⟩) fun _ => rfl
/-- C226: pareto: every refused argument is read -/
theorem C226_pareto_violated : ¬ ReadsChecked Pareto.codec (fun a : F64 × F64 => Pareto.new a.1 a.2) Pareto.ofParams ∧
    ReadsInvalid Pareto.codec (fun _ => True) (fun a : F64 × F64 => Pareto.new a.1 a.2) Pareto.params Pareto.ofParams id :=
  have h := readsInvalid_of (c := Pareto.codec) (fits := fun _ => True) C18_pareto_round_trip ⟨by decide, ⟨trivial, trivial⟩⟩ (fun _ => rfl) (fun _ h => ⟨trivial, trivial⟩) (fun _ => rfl) (Function.injective_id)
  ⟨not_checked_of h (.nan, .nan) (trivial) (refused C18_pareto_round_trip (fun h => F64.not_lt_nan _ h)), h⟩
/-- C226: pareto: accepted arguments give the constructor's result -/
theorem C226_pareto_partial : ReadsValid Pareto.codec (fun a : F64 × F64 => Pareto.new a.1 a.2) Pareto.ofParams id := readsValid_of C18_pareto_round_trip
/-- C225: rayleigh -/
theorem C225_rayleigh : Survives Rayleigh.codec (fun p => .map [("sigma", .f64 p)]) (fun _ => True) (fun a : F64 => Rayleigh.new a) Rayleigh.params Rayleigh.ofParams :=
  survives_of C18_rayleigh_round_trip ⟨by decide, trivial⟩ (fun _ => rfl) (fun _ h => trivial) fun _ => rfl
/-- C226: rayleigh: every refused argument is read -/
theorem C226_rayleigh_violated : ¬ ReadsChecked Rayleigh.codec (fun a : F64 => Rayleigh.new a) Rayleigh.ofParams ∧
    ReadsInvalid Rayleigh.codec (fun _ => True) (fun a : F64 => Rayleigh.new a) Rayleigh.params Rayleigh.ofParams id :=
  have h := readsInvalid_of (c := Rayleigh.codec) (fits := fun _ => True) C18_rayleigh_round_trip ⟨by decide, trivial⟩ (fun _ => rfl) (fun _ h => trivial) (fun _ => rfl) (Function.injective_id)
  ⟨not_checked_of h .nan (trivial) (refused C18_rayleigh_round_trip (fun h => F64.not_lt_nan _ h)), h⟩
/-- C226: rayleigh: accepted arguments give the constructor's result -/
theorem C226_rayleigh_partial : ReadsValid Rayleigh.codec (fun a : F64 => Rayleigh.new a) Rayleigh.ofParams id := readsValid_of C18_rayleigh_round_trip
/-- C225: triangular -/
theorem C225_triangular : Survives Triangular.codec (fun p => .map [("a", .f64 p.1), ("a2c", .f64 p.2.1), ("c2b", .f64 p.2.2)]) (fun _ => True) (fun a : F64 × F64 × F64 => Triangular.new a.1 a.2.1 a.2.2) Triangular.params Triangular.ofParams :=
  survives_of C18_triangular_round_trip ⟨by decide, ⟨trivial, trivial, trivial⟩⟩ (fun _ => rfl) (fun _ h => ⟨trivial, trivial, trivial⟩) fun _ => rfl
/-- C226: triangular: every refused argument is read -/
theorem C226_triangular_violated : ¬ ReadsChecked Triangular.codec (fun a : F64 × F64 × F64 => Triangular.new a.1 a.2.1 a.2.2) Triangular.ofParams ∧
    ReadsInvalid Triangular.codec (fun _ => True) (fun a : F64 × F64 × F64 => Triangular.new a.1 a.2.1 a.2.2) Triangular.params Triangular.ofParams id :=
  have h := readsInvalid_of (c := Triangular.codec) (fits := fun _ => True) C18_triangular_round_trip ⟨by decide, ⟨trivial, trivial, trivial⟩⟩ (fun _ => rfl) (fun _ h => ⟨trivial, trivial, trivial⟩) (fun _ => rfl) (Function.injective_id)
  ⟨not_checked_of h (.nan, .nan, .nan) (trivial) (refused C18_triangular_round_trip (fun h => F64.not_lt_nan _ h.2)), h⟩
/-- C226: triangular: accepted arguments give the constructor's result -/
theorem C226_triangular_partial : ReadsValid Triangular.codec (fun a : F64 × F64 × F64 => Triangular.new a.1 a.2.1 a.2.2) Triangular.ofParams id := readsValid_of C18_triangular_round_trip
/-- C225: weibull -/
theorem C225_weibull : Survives Weibull.codec (fun p => .map [("lambda", .f64 p.1), ("k", .f64 p.2)]) (fun _ => True) (fun a : F64 × F64 => Weibull.new a.1 a.2) Weibull.params Weibull.ofParams :=
  survives_of C18_weibull_round_trip ⟨by decide, ⟨trivial, trivial⟩⟩ (fun _ => rfl) (fun _ h => ⟨trivial, trivial⟩) fun _ => rfl
/-- C226: weibull: every refused argument is read -/
theorem C226_weibull_violated : ¬ ReadsChecked Weibull.codec (fun a : F64 × F64 => Weibull.new a.1 a.2) Weibull.ofParams ∧
    ReadsInvalid Weibull.codec (fun _ => True) (fun a : F64 × F64 => Weibull.new a.1 a.2) Weibull.params Weibull.ofParams id :=
  have h := readsInvalid_of (c := Weibull.codec) (fits := fun _ => True) C18_weibull_round_trip ⟨by decide, ⟨trivial, trivial⟩⟩ (fun _ => rfl) (fun _ h => ⟨trivial, trivial⟩) (fun _ => rfl) (Function.injective_id)
  ⟨not_checked_of h (.nan, .nan) (trivial) (refused C18_weibull_round_trip (fun h => F64.not_lt_nan _ h.2)), h⟩
/-- C226: weibull: accepted arguments give the constructor's result -/
theorem C226_weibull_partial : ReadsValid Weibull.codec (fun a : F64 × F64 => Weibull.new a.1 a.2) Weibull.ofParams id := readsValid_of C18_weibull_round_trip
/-- C225: poisson -/
theorem C225_poisson : Survives Poisson.codec (fun p => .map [("lambda", .f64 p)]) (fun _ => True) (fun a : F64 => Poisson.new a) Poisson.params Poisson.ofParams :=
  survives_of C18_poisson_round_trip ⟨by decide, trivial⟩ (fun _ => rfl) (fun _ h => trivial) fun _ => rfl
/-- C226: poisson: every refused argument is read -/
theorem C226_poisson_violated : ¬ ReadsChecked Poisson.codec (fun a : F64 => Poisson.new a) Poisson.ofParams ∧
    ReadsInvalid Poisson.codec (fun _ => True) (fun a : F64 => Poisson.new a) Poisson.params Poisson.ofParams id :=
  have h := readsInvalid_of (c := Poisson.codec) (fits := fun _ => True) C18_poisson_round_trip ⟨by decide, trivial⟩ (fun _ => rfl) (fun _ h => trivial) (fun _ => rfl) (Function.injective_id)
  ⟨not_checked_of h .nan (trivial) (refused C18_poisson_round_trip (fun h => F64.not_lt_nan _ h)), h⟩
/-- C226: poisson: accepted arguments give the constructor's result -/
theorem C226_poisson_partial : ReadsValid Poisson.codec (fun a : F64 => Poisson.new a) Poisson.ofParams id := readsValid_of C18_poisson_round_trip
/-- C225: gamma -/
theorem C225_gamma : Survives Gamma.codec (fun p => .map [("alpha", .f64 p.1), ("beta", .f64 p.2)]) (fun _ => True) (fun a : F64 × F64 => Gamma.new a.1 a.2) Gamma.params Gamma.ofParams :=
  survives_of C18_gamma_round_trip ⟨by decide, ⟨trivial, trivial⟩⟩ (fun _ => rfl) (fun _ h => ⟨trivial, trivial⟩) fun _ => rfl
/-- C226: gamma: every refused argument is read -/
theorem C226_gamma_violated : ¬ ReadsChecked Gamma.codec (fun a : F64 × F64 => Gamma.new a.1 a.2) Gamma.ofParams ∧
    ReadsInvalid Gamma.codec (fun _ => True) (fun a : F64 × F64 => Gamma.new a.1 a.2) Gamma.params Gamma.ofParams id :=
  have h := readsInvalid_of (c := Gamma.codec) (fits := fun _ => True) C18_gamma_round_trip ⟨by decide, ⟨trivial, trivial⟩⟩ (fun _ => rfl) (fun _ h => ⟨trivial, trivial⟩) (fun _ => rfl) (Function.injective_id)
  ⟨not_checked_of h (.nan, .nan) (trivial) (refused C18_gamma_round_trip (fun h => F64.not_lt_nan _ h.2)), h⟩
/-- C226: gamma: accepted arguments give the constructor's result -/
theorem C226_gamma_partial : ReadsValid Gamma.codec (fun a : F64 × F64 => Gamma.new a.1 a.2) Gamma.ofParams id := readsValid_of C18_gamma_round_trip
/-- C225: inverse_gamma -/
theorem C225_inverse_gamma : Survives InvGamma.codec (fun p => .map [("alpha", .f64 p.1), ("beta", .f64 p.2)]) (fun _ => True) (fun a : F64 × F64 => InvGamma.new a.1 a.2) InvGamma.params InvGamma.ofParams :=
  survives_of C18_inverse_gamma_round_trip ⟨by decide, ⟨trivial, trivial⟩⟩ (fun _ => rfl) (fun _ h => ⟨trivial, trivial⟩) fun _ => rfl
/-- C226: inverse_gamma: every refused argument is read -/
theorem C226_inverse_gamma_violated : ¬ ReadsChecked InvGamma.codec (fun a : F64 × F64 => InvGamma.new a.1 a.2) InvGamma.ofParams ∧
    ReadsInvalid InvGamma.codec (fun _ => True) (fun a : F64 × F64 => InvGamma.new a.1 a.2) InvGamma.params InvGamma.ofParams id :=
  have h := readsInvalid_of (c := InvGamma.codec) (fits := fun _ => True) C18_inverse_gamma_round_trip ⟨by decide, ⟨trivial, trivial⟩⟩ (fun _ => rfl) (fun _ h => ⟨trivial, trivial⟩) (fun _ => rfl) (Function.injective_id)
  ⟨not_checked_of h (.nan, .nan) (trivial) (refused C18_inverse_gamma_round_trip (fun h => F64.not_lt_nan _ h.2)), h⟩
/-- C226: inverse_gamma: accepted arguments give the constructor's result -/
theorem C226_inverse_gamma_partial : ReadsValid InvGamma.codec (fun a : F64 × F64 => InvGamma.new a.1 a.2) InvGamma.ofParams id := readsValid_of C18_inverse_gamma_round_trip
/-- C225: beta -/
theorem C225_beta : Survives BetaDist.codec (fun p => .map [("alpha", .f64 p.1), ("beta", .f64 p.2)]) (fun _ => True) (fun a : F64 × F64 => BetaDist.new a.1 a.2) BetaDist.params BetaDist.ofParams :=
  survives_of C18_beta_round_trip ⟨by decide, ⟨trivial, trivial⟩⟩ (fun _ => rfl) (fun _ h => ⟨trivial, trivial⟩) fun _ => rfl
/-- C226: beta: every refused argument is read -/
theorem C226_beta_violated : ¬ ReadsChecked BetaDist.codec (fun a : F64 × F64 => BetaDist.new a.1 a.2) BetaDist.ofParams ∧
    ReadsInvalid BetaDist.codec (fun _ => True) (fun a : F64 × F64 => BetaDist.new a.1 a.2) BetaDist.params BetaDist.ofParams id :=
  have h := readsInvalid_of (c := BetaDist.codec) (fits := fun _ => True) C18_beta_round_trip ⟨by decide, ⟨trivial, trivial⟩⟩ (fun _ => rfl) (fun _ h => ⟨trivial, trivial⟩) (fun _ => rfl) (Function.injective_id)
  ⟨not_checked_of h (.nan, .nan) (trivial) (refused C18_beta_round_trip (fun h => F64.not_lt_nan _ h.2)), h⟩
/-- C226: beta: accepted arguments give the constructor's result -/
theorem C226_beta_partial : ReadsValid BetaDist.codec (fun a : F64 × F64 => BetaDist.new a.1 a.2) BetaDist.ofParams id := readsValid_of C18_beta_round_trip
/-- C225: beta_prime -/
theorem C225_beta_prime : Survives BetaPrime.codec (fun p => .map [("alpha", .f64 p.1), ("beta", .f64 p.2)]) (fun _ => True) (fun a : F64 × F64 => BetaPrime.new a.1 a.2) BetaPrime.params BetaPrime.ofParams :=
  survives_of C18_beta_prime_round_trip ⟨by decide, ⟨trivial, trivial⟩⟩ (fun _ => rfl) (fun _ h => ⟨trivial, trivial⟩) fun _ => rfl
/-- C226: beta_prime: every refused argument is read -/
theorem C226_beta_prime_violated : ¬ ReadsChecked BetaPrime.codec (fun a : F64 × F64 => BetaPrime.new a.1 a.2) BetaPrime.ofParams ∧
    ReadsInvalid BetaPrime.codec (fun _ => True) (fun a : F64 × F64 => BetaPrime.new a.1 a.2) BetaPrime.params BetaPrime.ofParams id :=
  have h := readsInvalid_of (c := BetaPrime.codec) (fits := fun _ => True) C18_beta_prime_round_trip ⟨by decide, ⟨trivial, trivial⟩⟩ (fun _ => rfl) (fun _ h => ⟨trivial, trivial⟩) (fun _ => rfl) (Function.injective_id)
  ⟨not_checked_of h (.nan, .nan) (trivial) (refused C18_beta_prime_round_trip (fun h => F64.not_lt_nan _ h.2)), h⟩
/-- C226: beta_prime: accepted arguments give the constructor's result -/
theorem C226_beta_prime_partial : ReadsValid BetaPrime.codec (fun a : F64 × F64 => BetaPrime.new a.1 a.2) BetaPrime.ofParams id := readsValid_of C18_beta_prime_round_trip
/-- C225: student_t -/
theorem C225_student_t : Survives StudentT.codec (fun p => .map [("nu", .f64 p)]) (fun _ => True) (fun a : F64 => StudentT.new a) StudentT.params StudentT.ofParams :=
  survives_of C18_student_t_round_trip ⟨by decide, trivial⟩ (fun _ => rfl) (fun _ h => trivial) fun _ => rfl
/-- C226: student_t has no constraint to check -/
theorem C226_student_t_unconstrained : ReadsChecked StudentT.codec (fun a : F64 => StudentT.new a) StudentT.ofParams :=
  fun _ d _ => ⟨d.params, ((C18_student_t_round_trip d.params).1.2 trivial).elim fun e he => by
    have h := ((C18_student_t_round_trip d.params).2 e he).1
    have : e = d := by cases e; cases d; exact congrArg StudentT.mk h
    rw [he, this]⟩
/-- C225: levy -/
theorem C225_levy : Survives Levy.codec (fun p => .map [("mu", .f64 p.1), ("c", .f64 p.2)]) (fun _ => True) (fun a : F64 × F64 => Levy.new a.1 a.2) Levy.params Levy.ofParams :=
  survives_of C18_levy_round_trip ⟨by decide, ⟨trivial, trivial⟩⟩ (fun _ => rfl) (fun _ h => ⟨trivial, trivial⟩) fun _ => rfl
/-- C226: levy: every refused argument is read -/
theorem C226_levy_violated : ¬ ReadsChecked Levy.codec (fun a : F64 × F64 => Levy.new a.1 a.2) Levy.ofParams ∧
    ReadsInvalid Levy.codec (fun _ => True) (fun a : F64 × F64 => Levy.new a.1 a.2) Levy.params Levy.ofParams id :=
  have h := readsInvalid_of (c := Levy.codec) (fits := fun _ => True) C18_levy_round_trip ⟨by decide, ⟨trivial, trivial⟩⟩ (fun _ => rfl) (fun _ h => ⟨trivial, trivial⟩) (fun _ => rfl) (Function.injective_id)
  ⟨not_checked_of h (.nan, .nan) (trivial) (refused C18_levy_round_trip (fun h => F64.not_lt_nan _ h)), h⟩
/-- C226: levy: accepted arguments give the constructor's result -/
theorem C226_levy_partial : ReadsValid Levy.codec (fun a : F64 × F64 => Levy.new a.1 a.2) Levy.ofParams id := readsValid_of C18_levy_round_trip
/-- C225: folded_normal -/
theorem C225_folded_normal : Survives FoldedNormal.codec (fun p => .map [("mu", .f64 p.1), ("sigma", .f64 p.2)]) (fun _ => True) (fun a : F64 × F64 => FoldedNormal.new a.1 a.2) FoldedNormal.params FoldedNormal.ofParams :=
  survives_of C18_folded_normal_round_trip ⟨by decide, ⟨trivial, trivial⟩⟩ (fun _ => rfl) (fun _ h => ⟨trivial, trivial⟩) fun _ => rfl
/-- C226: folded_normal: every refused argument is read -/
theorem C226_folded_normal_violated : ¬ ReadsChecked FoldedNormal.codec (fun a : F64 × F64 => FoldedNormal.new a.1 a.2) FoldedNormal.ofParams ∧
    ReadsInvalid FoldedNormal.codec (fun _ => True) (fun a : F64 × F64 => FoldedNormal.new a.1 a.2) FoldedNormal.params FoldedNormal.ofParams id :=
  have h := readsInvalid_of (c := FoldedNormal.codec) (fits := fun _ => True) C18_folded_normal_round_trip ⟨by decide, ⟨trivial, trivial⟩⟩ (fun _ => rfl) (fun _ h => ⟨trivial, trivial⟩) (fun _ => rfl) (Function.injective_id)
  ⟨not_checked_of h (.nan, .nan) (trivial) (refused C18_folded_normal_round_trip (fun h => F64.not_lt_nan _ h)), h⟩
/-- C226: folded_normal: accepted arguments give the constructor's result -/
theorem C226_folded_normal_partial : ReadsValid FoldedNormal.codec (fun a : F64 × F64 => FoldedNormal.new a.1 a.2) FoldedNormal.ofParams id := readsValid_of C18_folded_normal_round_trip
/-- C225: chi_sq -/
theorem C225_chi_sq : Survives ChiSq.codec (fun p => .map [("k", .u64 p)]) (fun p => p < 2 ^ 64) (fun a : ℕ => ChiSq.new a) ChiSq.params ChiSq.ofParams :=
  survives_of C18_chi_sq_round_trip ⟨by decide, trivial⟩ (fun _ => rfl) (fun _ h => h) fun _ => rfl
/-- C226: chi_sq: every refused argument is read -/
theorem C226_chi_sq_violated : ¬ ReadsChecked ChiSq.codec (fun a : ℕ => ChiSq.new a) ChiSq.ofParams ∧
    ReadsInvalid ChiSq.codec (fun p => p < 2 ^ 64) (fun a : ℕ => ChiSq.new a) ChiSq.params ChiSq.ofParams id :=
  have h := readsInvalid_of (c := ChiSq.codec) (fits := fun p => p < 2 ^ 64) C18_chi_sq_round_trip ⟨by decide, trivial⟩ (fun _ => rfl) (fun _ h => h) (fun _ => rfl) (Function.injective_id)
  ⟨not_checked_of h 0 (by norm_num) (refused C18_chi_sq_round_trip (lt_irrefl 0)), h⟩
/-- C226: chi_sq: accepted arguments give the constructor's result -/
theorem C226_chi_sq_partial : ReadsValid ChiSq.codec (fun a : ℕ => ChiSq.new a) ChiSq.ofParams id := readsValid_of C18_chi_sq_round_trip
/-- C225: chi -/
theorem C225_chi : Survives Chi.codec (fun p => .map [("k", .u64 p)]) (fun p => p < 2 ^ 64) (fun a : ℕ => Chi.new a) Chi.params Chi.ofParams :=
  survives_of C18_chi_round_trip ⟨by decide, trivial⟩ (fun _ => rfl) (fun _ h => h) fun _ => rfl
/-- C226: chi: every refused argument is read -/
theorem C226_chi_violated : ¬ ReadsChecked Chi.codec (fun a : ℕ => Chi.new a) Chi.ofParams ∧
    ReadsInvalid Chi.codec (fun p => p < 2 ^ 64) (fun a : ℕ => Chi.new a) Chi.params Chi.ofParams id :=
  have h := readsInvalid_of (c := Chi.codec) (fits := fun p => p < 2 ^ 64) C18_chi_round_trip ⟨by decide, trivial⟩ (fun _ => rfl) (fun _ h => h) (fun _ => rfl) (Function.injective_id)
  ⟨not_checked_of h 0 (by norm_num) (refused C18_chi_round_trip (lt_irrefl 0)), h⟩
/-- C226: chi: accepted arguments give the constructor's result -/
theorem C226_chi_partial : ReadsValid Chi.codec (fun a : ℕ => Chi.new a) Chi.ofParams id := readsValid_of C18_chi_round_trip
/-- C225: erlang -/
theorem C225_erlang : Survives Erlang.codec (fun p => .map [("k", .u64 p.1), ("lambda", .f64 p.2)]) (fun p => p.1 < 2 ^ 64) (fun a : ℕ × F64 => Erlang.new a.1 a.2) Erlang.params Erlang.ofParams :=
  survives_of C18_erlang_round_trip ⟨by decide, ⟨trivial, trivial⟩⟩ (fun _ => rfl) (fun _ h => ⟨h, trivial⟩) fun _ => rfl
/-- C226: erlang: every refused argument is read -/
theorem C226_erlang_violated : ¬ ReadsChecked Erlang.codec (fun a : ℕ × F64 => Erlang.new a.1 a.2) Erlang.ofParams ∧
    ReadsInvalid Erlang.codec (fun p => p.1 < 2 ^ 64) (fun a : ℕ × F64 => Erlang.new a.1 a.2) Erlang.params Erlang.ofParams id :=
  have h := readsInvalid_of (c := Erlang.codec) (fits := fun p => p.1 < 2 ^ 64) C18_erlang_round_trip ⟨by decide, ⟨trivial, trivial⟩⟩ (fun _ => rfl) (fun _ h => ⟨h, trivial⟩) (fun _ => rfl) (Function.injective_id)
  ⟨not_checked_of h (0, .nan) (by norm_num) (refused C18_erlang_round_trip (fun h => F64.not_lt_nan _ h.2)), h⟩
/-- C226: erlang: accepted arguments give the constructor's result -/
theorem C226_erlang_partial : ReadsValid Erlang.codec (fun a : ℕ × F64 => Erlang.new a.1 a.2) Erlang.ofParams id := readsValid_of C18_erlang_round_trip
/-- C225: f_dist -/
theorem C225_f_dist : Survives FDist.codec (fun p => .map [("d1", .u64 p.1), ("d2", .u64 p.2)]) (fun p => p.1 < 2 ^ 64 ∧ p.2 < 2 ^ 64) (fun a : ℕ × ℕ => FDist.new a.1 a.2) FDist.params FDist.ofParams :=
  survives_of C18_f_dist_round_trip ⟨by decide, ⟨trivial, trivial⟩⟩ (fun _ => rfl) (fun _ h => ⟨h.1, h.2⟩) fun _ => rfl
/-- C226: f_dist: every refused argument is read -/
theorem C226_f_dist_violated : ¬ ReadsChecked FDist.codec (fun a : ℕ × ℕ => FDist.new a.1 a.2) FDist.ofParams ∧
    ReadsInvalid FDist.codec (fun p => p.1 < 2 ^ 64 ∧ p.2 < 2 ^ 64) (fun a : ℕ × ℕ => FDist.new a.1 a.2) FDist.params FDist.ofParams id :=
  have h := readsInvalid_of (c := FDist.codec) (fits := fun p => p.1 < 2 ^ 64 ∧ p.2 < 2 ^ 64) C18_f_dist_round_trip ⟨by decide, ⟨trivial, trivial⟩⟩ (fun _ => rfl) (fun _ h => ⟨h.1, h.2⟩) (fun _ => rfl) (Function.injective_id)
  ⟨not_checked_of h (0, 0) (⟨by norm_num, by norm_num⟩) (refused C18_f_dist_round_trip (fun h => lt_irrefl 0 h.1)), h⟩
/-- C226: f_dist: accepted arguments give the constructor's result -/
theorem C226_f_dist_partial : ReadsValid FDist.codec (fun a : ℕ × ℕ => FDist.new a.1 a.2) FDist.ofParams id := readsValid_of C18_f_dist_round_trip
/-- C225: uniform -/
theorem C225_uniform : Survives UniformF.codec (fun p => .map [("lb", .f64 p.1), ("width", .f64 p.2)]) (fun _ => True) (fun a : F64 × F64 => UniformF.new a.1 a.2) UniformF.params (fun p => UniformF.fromParams p.1 p.2) :=
  survives_of C18_uniform_round_trip ⟨by decide, ⟨trivial, trivial⟩⟩ (fun _ => rfl) (fun _ h => ⟨trivial, trivial⟩) fun _ => rfl
/-- C226: uniform: every refused argument is read -/
theorem C226_uniform_violated : ¬ ReadsChecked UniformF.codec (fun a : F64 × F64 => UniformF.new a.1 a.2) (fun p => UniformF.fromParams p.1 p.2) ∧
    ReadsInvalid UniformF.codec (fun _ => True) (fun a : F64 × F64 => UniformF.new a.1 a.2) UniformF.params (fun p => UniformF.fromParams p.1 p.2) id :=
  have h := readsInvalid_of (c := UniformF.codec) (fits := fun _ => True) C18_uniform_round_trip ⟨by decide, ⟨trivial, trivial⟩⟩ (fun _ => rfl) (fun _ h => ⟨trivial, trivial⟩) (fun _ => rfl) (Function.injective_id)
  ⟨not_checked_of h (.nan, .nan) (trivial) (refused C18_uniform_round_trip (fun h => F64.not_lt_nan _ h)), h⟩
/-- C226: uniform: accepted arguments give the constructor's result -/
theorem C226_uniform_partial : ReadsValid UniformF.codec (fun a : F64 × F64 => UniformF.new a.1 a.2) (fun p => UniformF.fromParams p.1 p.2) id := readsValid_of C18_uniform_round_trip
/-- C225: normal -/
theorem C225_normal : Survives UvNormal.codec (fun p => .map [("mu", .f64 p.mu), ("Sigma", .f64 p.Sigma)]) (fun _ => True) (fun a : F64 × F64 => UvNormal.new a.1 a.2) UvNormal.params UvNormal.ofParams :=
  survives_of C18_normal_round_trip ⟨by decide, ⟨trivial, trivial⟩⟩ (fun _ => rfl) (fun _ h => ⟨trivial, trivial⟩) fun _ => rfl
/-- C226: normal: every refused argument is read -/
theorem C226_normal_violated : ¬ ReadsChecked UvNormal.codec (fun a : F64 × F64 => UvNormal.new a.1 a.2) UvNormal.ofParams ∧
    ReadsInvalid UvNormal.codec (fun _ => True) (fun a : F64 × F64 => UvNormal.new a.1 a.2) UvNormal.params UvNormal.ofParams (fun a => ⟨a.1, a.2⟩) :=
  have h := readsInvalid_of (c := UvNormal.codec) (fits := fun _ => True) C18_normal_round_trip ⟨by decide, ⟨trivial, trivial⟩⟩ (fun _ => rfl) (fun _ h => ⟨trivial, trivial⟩) (fun _ => rfl) (fun a b h => Prod.ext (congrArg UvNormalParams.mu h) (congrArg UvNormalParams.Sigma h))
  ⟨not_checked_of h (.nan, .nan) (trivial) (refused C18_normal_round_trip (fun h => F64.not_lt_nan _ h)), h⟩
/-- C226: normal: accepted arguments give the constructor's result -/
theorem C226_normal_partial : ReadsValid UvNormal.codec (fun a : F64 × F64 => UvNormal.new a.1 a.2) UvNormal.ofParams (fun a => ⟨a.1, a.2⟩) := readsValid_of C18_normal_round_trip
/-- C225: lognormal -/
theorem C225_lognormal : Survives LogNormal.codec (fun p => .map [("mu", .f64 p.mu), ("Sigma", .f64 p.Sigma)]) (fun _ => True) (fun a : F64 × F64 => LogNormal.new a.1 a.2) LogNormal.params LogNormal.ofParams :=
  survives_of C18_lognormal_round_trip ⟨by decide, ⟨trivial, trivial⟩⟩ (fun _ => rfl) (fun _ h => ⟨trivial, trivial⟩) fun _ => rfl
/-- C226: lognormal: every refused argument is read -/
theorem C226_lognormal_violated : ¬ ReadsChecked LogNormal.codec (fun a : F64 × F64 => LogNormal.new a.1 a.2) LogNormal.ofParams ∧
    ReadsInvalid LogNormal.codec (fun _ => True) (fun a : F64 × F64 => LogNormal.new a.1 a.2) LogNormal.params LogNormal.ofParams (fun a => ⟨a.1, a.2⟩) :=
  have h := readsInvalid_of (c := LogNormal.codec) (fits := fun _ => True) C18_lognormal_round_trip ⟨by decide, ⟨trivial, trivial⟩⟩ (fun _ => rfl) (fun _ h => ⟨trivial, trivial⟩) (fun _ => rfl) (fun a b h => Prod.ext (congrArg UvNormalParams.mu h) (congrArg UvNormalParams.Sigma h))
  ⟨not_checked_of h (.nan, .nan) (trivial) (refused C18_lognormal_round_trip (fun h => F64.not_lt_nan _ h)), h⟩
/-- C226: lognormal: accepted arguments give the constructor's result -/
theorem C226_lognormal_partial : ReadsValid LogNormal.codec (fun a : F64 × F64 => LogNormal.new a.1 a.2) LogNormal.ofParams (fun a => ⟨a.1, a.2⟩) := readsValid_of C18_lognormal_round_trip
/-- C225: inverse_normal -/
theorem C225_inverse_normal : Survives InvNormal.codec (fun p => .map [("mu", .f64 p.1), ("lambda", .f64 p.2)]) (fun _ => True) (fun a : F64 × F64 => InvNormal.new a.1 a.2) InvNormal.params InvNormal.ofParams :=
  survives_of C18_inverse_normal_round_trip ⟨by decide, ⟨trivial, trivial⟩⟩ (fun _ => rfl) (fun _ h => ⟨trivial, trivial⟩) fun _ => rfl
/-- C226: inverse_normal: every refused argument is read -/
theorem C226_inverse_normal_violated : ¬ ReadsChecked InvNormal.codec (fun a : F64 × F64 => InvNormal.new a.1 a.2) InvNormal.ofParams ∧
    ReadsInvalid InvNormal.codec (fun _ => True) (fun a : F64 × F64 => InvNormal.new a.1 a.2) InvNormal.params InvNormal.ofParams id :=
  have h := readsInvalid_of (c := InvNormal.codec) (fits := fun _ => True) C18_inverse_normal_round_trip ⟨by decide, ⟨trivial, trivial⟩⟩ (fun _ => rfl) (fun _ h => ⟨trivial, trivial⟩) (fun _ => rfl) (Function.injective_id)
  ⟨not_checked_of h (.nan, .nan) (trivial) (refused C18_inverse_normal_round_trip (fun h => F64.not_lt_nan _ h.2)), h⟩
/-- C226: inverse_normal: accepted arguments give the constructor's result -/
theorem C226_inverse_normal_partial : ReadsValid InvNormal.codec (fun a : F64 × F64 => InvNormal.new a.1 a.2) InvNormal.ofParams id := readsValid_of C18_inverse_normal_round_trip
/-- C225: beta_binomial -/
theorem C225_beta_binomial : Survives BetaBinomial.codec (fun p => .map [("n", .u64 p.1), ("alpha", .f64 p.2.1), ("beta", .f64 p.2.2)]) (fun p => p.1 < 2 ^ 64) (fun a : ℕ × F64 × F64 => BetaBinomial.new a.1 a.2.1 a.2.2) BetaBinomial.params (fun p => BetaBinomial.fromParams p.1 p.2.1 p.2.2) :=
  survives_of C18_beta_binomial_round_trip ⟨by decide, ⟨trivial, trivial, trivial⟩⟩ (fun _ => rfl) (fun _ h => ⟨h, trivial, trivial⟩) fun _ => rfl
/-- C226: beta_binomial: every refused argument is read -/
theorem C226_beta_binomial_violated : ¬ ReadsChecked BetaBinomial.codec (fun a : ℕ × F64 × F64 => BetaBinomial.new a.1 a.2.1 a.2.2) (fun p => BetaBinomial.fromParams p.1 p.2.1 p.2.2) ∧
    ReadsInvalid BetaBinomial.codec (fun p => p.1 < 2 ^ 64) (fun a : ℕ × F64 × F64 => BetaBinomial.new a.1 a.2.1 a.2.2) BetaBinomial.params (fun p => BetaBinomial.fromParams p.1 p.2.1 p.2.2) id :=
  have h := readsInvalid_of (c := BetaBinomial.codec) (fits := fun p => p.1 < 2 ^ 64) C18_beta_binomial_round_trip ⟨by decide, ⟨trivial, trivial, trivial⟩⟩ (fun _ => rfl) (fun _ h => ⟨h, trivial, trivial⟩) (fun _ => rfl) (Function.injective_id)
  ⟨not_checked_of h (0, .nan, .nan) (by norm_num) (refused C18_beta_binomial_round_trip (fun h => F64.not_lt_nan _ h.2)), h⟩
/-- C226: beta_binomial: accepted arguments give the constructor's result -/
theorem C226_beta_binomial_partial : ReadsValid BetaBinomial.codec (fun a : ℕ × F64 × F64 => BetaBinomial.new a.1 a.2.1 a.2.2) (fun p => BetaBinomial.fromParams p.1 p.2.1 p.2.2) id := readsValid_of C18_beta_binomial_round_trip
/-- C225: bernoulli -/
theorem C225_bernoulli : Survives Bernoulli.codec (fun p => .map [("p", .f64 p.val)]) (fun _ => True) (fun a : F64 => Bernoulli.new a) Bernoulli.params Bernoulli.fromParams :=
  survives_of C18_bernoulli_round_trip ⟨by decide, trivial⟩ (fun _ => rfl) (fun _ h => trivial) fun _ => rfl
/-- C226: bernoulli: every refused argument is read -/
theorem C226_bernoulli_violated : ¬ ReadsChecked Bernoulli.codec (fun a : F64 => Bernoulli.new a) Bernoulli.fromParams ∧
    ReadsInvalid Bernoulli.codec (fun _ => True) (fun a : F64 => Bernoulli.new a) Bernoulli.params Bernoulli.fromParams (fun a => ⟨a⟩) :=
  have h := readsInvalid_of (c := Bernoulli.codec) (fits := fun _ => True) C18_bernoulli_round_trip ⟨by decide, trivial⟩ (fun _ => rfl) (fun _ h => trivial) (fun _ => rfl) (fun _ _ h => congrArg Probability.val h)
  ⟨not_checked_of h .nan (trivial) (refused C18_bernoulli_round_trip (fun h => F64.not_nan_le _ h.2)), h⟩
/-- C226: bernoulli: accepted arguments give the constructor's result -/
theorem C226_bernoulli_partial : ReadsValid Bernoulli.codec (fun a : F64 => Bernoulli.new a) Bernoulli.fromParams (fun a => ⟨a⟩) := readsValid_of C18_bernoulli_round_trip
/-- C225: binomial -/
theorem C225_binomial : Survives Binomial.codec (fun p => .map [("n", .u64 p.1), ("p", .f64 p.2.val)]) (fun p => p.1 < 2 ^ 64) (fun a : ℕ × Probability => Binomial.new a.1 a.2) Binomial.params Binomial.fromParams :=
  survives_of C18_binomial_round_trip ⟨by decide, ⟨trivial, trivial⟩⟩ (fun _ => rfl) (fun _ h => ⟨h, trivial⟩) fun _ => rfl
/-- C226: binomial: every refused argument is read -/
theorem C226_binomial_violated : ¬ ReadsChecked Binomial.codec (fun a : ℕ × Probability => Binomial.new a.1 a.2) Binomial.fromParams ∧
    ReadsInvalid Binomial.codec (fun p => p.1 < 2 ^ 64) (fun a : ℕ × Probability => Binomial.new a.1 a.2) Binomial.params Binomial.fromParams id :=
  have h := readsInvalid_of (c := Binomial.codec) (fits := fun p => p.1 < 2 ^ 64) C18_binomial_round_trip ⟨by decide, ⟨trivial, trivial⟩⟩ (fun _ => rfl) (fun _ h => ⟨h, trivial⟩) (fun _ => rfl) (Function.injective_id)
  ⟨not_checked_of h (0, ⟨.nan⟩) (by norm_num) (refused C18_binomial_round_trip (fun h => F64.not_nan_le _ h.2)), h⟩
/-- C226: binomial: accepted arguments give the constructor's result -/
theorem C226_binomial_partial : ReadsValid Binomial.codec (fun a : ℕ × Probability => Binomial.new a.1 a.2) Binomial.fromParams id := readsValid_of C18_binomial_round_trip
/-- C225: geometric -/
theorem C225_geometric : Survives Geometric.codec (fun p => .map [("p", .f64 p.val)]) (fun _ => True) (fun a : F64 => Geometric.new a) Geometric.params Geometric.fromParams :=
  survives_of C18_geometric_round_trip ⟨by decide, trivial⟩ (fun _ => rfl) (fun _ h => trivial) fun _ => rfl
/-- C226: geometric: every refused argument is read -/
theorem C226_geometric_violated : ¬ ReadsChecked Geometric.codec (fun a : F64 => Geometric.new a) Geometric.fromParams ∧
    ReadsInvalid Geometric.codec (fun _ => True) (fun a : F64 => Geometric.new a) Geometric.params Geometric.fromParams (fun a => ⟨a⟩) :=
  have h := readsInvalid_of (c := Geometric.codec) (fits := fun _ => True) C18_geometric_round_trip ⟨by decide, trivial⟩ (fun _ => rfl) (fun _ h => trivial) (fun _ => rfl) (fun _ _ h => congrArg Probability.val h)
  ⟨not_checked_of h .nan (trivial) (refused C18_geometric_round_trip (fun h => F64.not_nan_le _ h.2)), h⟩
/-- C226: geometric: accepted arguments give the constructor's result -/
theorem C226_geometric_partial : ReadsValid Geometric.codec (fun a : F64 => Geometric.new a) Geometric.fromParams (fun a => ⟨a⟩) := readsValid_of C18_geometric_round_trip
end
end Rstat
