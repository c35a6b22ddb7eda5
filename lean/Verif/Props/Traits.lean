import Verif.Lemmas.Traits
import Verif.Props.Probability
import Mathlib.Data.List.Perm.Basic
import Mathlib.Logic.Function.Iterate
import Mathlib.Tactic.FinCases

/-! Properties C20–C27: provided trait methods. "`RetA x y`": the (recursive) call returns `y`. -/
namespace Rstat
open F64

/-! ### C20 -/
section C20
variable [FP] {X : Type}

/-- the call returns -/
def Rets {A : Type} (f : ℕ → X → Option A) (x : X) (y : A) : Prop := ∃ n, f n x = some y

theorem DistImpl.cdf_ret (d : DistImpl X) (x : X) (y : Probability) :
    Rets d.cdf x y ↔ (cdfPair d.cdf? d.logCdf?).RetA x y := Iff.rfl
theorem DistImpl.logCdf_ret (d : DistImpl X) (x : X) (y : F64) :
    Rets d.logCdf x y ↔ (cdfPair d.cdf? d.logCdf?).RetB x y := Iff.rfl
theorem DistImpl.ccdf_ret (d : DistImpl X) (h : d.ccdf? = none) (x : X) (y : Probability) :
    Rets d.ccdf x y ↔ ∃ p, Rets d.cdf x p ∧ y = p.not := by
  unfold Rets DistImpl.ccdf
  simp only [h, Option.map_eq_some_iff]
  constructor
  · rintro ⟨n, p, h1, h2⟩; exact ⟨p, ⟨n, h1⟩, h2.symm⟩
  · rintro ⟨p, ⟨n, h1⟩, h2⟩; exact ⟨n, p, h1, h2.symm⟩
theorem DistImpl.logCcdf_ret (d : DistImpl X) (h : d.logCcdf? = none) (x : X) (y : F64) :
    Rets d.logCcdf x y ↔ ∃ p, Rets d.ccdf x p ∧ y = p.val.ln := by
  unfold Rets DistImpl.logCcdf
  simp only [h, Option.map_eq_some_iff]
  constructor
  · rintro ⟨n, p, h1, h2⟩; exact ⟨p, ⟨n, h1⟩, h2.symm⟩
  · rintro ⟨p, ⟨n, h1⟩, h2⟩; exact ⟨n, p, h1, h2.symm⟩

/-- C20: an implementation giving only `cdf = F`: the four functions are F, ln F, 1 - F, ln (1 - F) -/
theorem C20_only_cdf (F : X → Probability) (x : X) (p : Probability) (l : F64) :
    let d : DistImpl X := ⟨some F, none, none, none⟩
    (Rets d.cdf x p ↔ p = F x) ∧ (Rets d.logCdf x l ↔ l = (F x).val.ln) ∧
    (Rets d.ccdf x p ↔ p.val = 1 - (F x).val) ∧ (Rets d.logCcdf x l ↔ l = (1 - (F x).val).ln) := by
  intro d
  have h1 : ∀ p, Rets d.cdf x p ↔ p = F x := fun p => (cdfPair d.cdf? d.logCdf?).retA_iff_over rfl x p
  have h2 : ∀ p, Rets d.ccdf x p ↔ p.val = 1 - (F x).val := by
    intro p; rw [d.ccdf_ret rfl]; simp only [h1]
    constructor
    · rintro ⟨q, rfl, rfl⟩; rfl
    · intro h; exact ⟨F x, rfl, Probability.ext h⟩
  refine ⟨h1 p, (cdfPair d.cdf? d.logCdf?).retB_iff_dflt rfl rfl x l, h2 p, ?_⟩
  rw [d.logCcdf_ret rfl]; simp only [h2]
  constructor
  · rintro ⟨q, hq, rfl⟩; rw [hq]
  · intro h; exact ⟨⟨1 - (F x).val⟩, rfl, h⟩

/-- C20: an implementation giving only `log_cdf = G`: cdf = exp G, ccdf = 1 - exp G, log_ccdf its logarithm -/
theorem C20_only_log_cdf (G : X → F64) (x : X) (p : Probability) (l : F64) :
    let d : DistImpl X := ⟨none, some G, none, none⟩
    (Rets d.logCdf x l ↔ l = G x) ∧ (Rets d.cdf x p ↔ p.val = (G x).exp) ∧
    (Rets d.ccdf x p ↔ p.val = 1 - (G x).exp) ∧ (Rets d.logCcdf x l ↔ l = (1 - (G x).exp).ln) := by
  intro d
  have h1 : ∀ p, Rets d.cdf x p ↔ p.val = (G x).exp := fun p =>
    ((cdfPair d.cdf? d.logCdf?).retA_iff_dflt rfl rfl x p).trans ⟨fun h => h ▸ rfl, fun h => Probability.ext h⟩
  have h2 : ∀ p, Rets d.ccdf x p ↔ p.val = 1 - (G x).exp := by
    intro p; rw [d.ccdf_ret rfl]; simp only [h1]
    constructor
    · rintro ⟨q, hq, rfl⟩; rw [← hq]; rfl
    · intro h; exact ⟨⟨(G x).exp⟩, rfl, Probability.ext h⟩
  refine ⟨(cdfPair d.cdf? d.logCdf?).retB_iff_over rfl x l, h1 p, h2 p, ?_⟩
  rw [d.logCcdf_ret rfl]; simp only [h2]
  constructor
  · rintro ⟨q, hq, rfl⟩; rw [hq]
  · intro h; exact ⟨⟨1 - (G x).exp⟩, rfl, h⟩

/-- C20: whichever of `cdf`/`log_cdf` (or both, consistently) is given, in exact arithmetic cdf + ccdf = 1 and
log_ccdf = ln ccdf -/
theorem C20_cdf_plus_ccdf [FP.Exact] (d : DistImpl X) (h : d.ccdf? = none) (h' : d.logCcdf? = none) (x : X)
    (p : Probability) (r : ℝ) (hp : Rets d.cdf x p) (hr : p.val.Is r) :
    (∃ q s, Rets d.ccdf x q ∧ q.val.Is s ∧ r + s = 1) ∧
    (r < 1 → ∃ l, Rets d.logCcdf x l ∧ l.Is (Real.log (1 - r))) := by
  have hc : Rets d.ccdf x p.not := (d.ccdf_ret h x _).2 ⟨p, hp, rfl⟩
  have hs : p.not.val.Is (1 - r) := Is.one.sub hr
  exact ⟨⟨_, _, hc, hs, by ring⟩, fun h1 => ⟨_, (d.logCcdf_ret h' x _).2 ⟨_, hc, rfl⟩, hs.ln (by linarith)⟩⟩

/-- C20: the default ccdf of a valid cdf is a valid probability, in any lawful arithmetic -/
theorem C20_ccdf_valid [FP.Lawful] (d : DistImpl X) (h : d.ccdf? = none) (x : X) (p q : Probability)
    (hp : Rets d.cdf x p) (hv : Spec.InUnit p.unwrap) (hq : Rets d.ccdf x q) : Spec.InUnit q.unwrap := by
  obtain ⟨p', hp', rfl⟩ := (d.ccdf_ret h x q).1 hq
  have : p' = p := MethodPair.RetA.unique hp' hp
  subst this
  exact (C01_is_valid_iff _).1 (C03_not_valid _ ((C01_is_valid_iff _).2 hv))

/-- C20: overriding neither `cdf` nor `log_cdf` never returns, whatever the argument -/
theorem C20_neither_diverges (c : Option (X → Probability)) (l : Option (X → F64)) (x : X) :
    let d : DistImpl X := ⟨none, none, c, l⟩
    (∀ p, ¬ Rets d.cdf x p) ∧ (∀ y, ¬ Rets d.logCdf x y) := by
  intro d
  exact (cdfPair (X := X) none none).not_ret rfl rfl x

end C20

section
attribute [local instance] exactFP exactFP_exact
example : ∃ p, Rets (DistImpl.cdf (⟨none, some fun _ => 0, none, none⟩ : DistImpl Unit)) () p := by
  exact ⟨⟨(0 : F64).exp⟩, ((C20_only_log_cdf (fun _ : Unit => 0) () _ 0).2.1).2 rfl⟩
end

/-! ### C21 -/
section C21
variable [FP] {X : Type}

/-- C21: pmf/log_pmf given one of them -/
theorem C21_pmf_defaults (F : X → Probability) (G : X → F64) (x : X) (p : Probability) (l : F64) :
    ((pmfPair (some F) none).RetA x p ↔ p = F x) ∧ ((pmfPair (some F) none).RetB x l ↔ l = (F x).val.ln) ∧
    ((pmfPair none (some G)).RetB x l ↔ l = G x) ∧ ((pmfPair none (some G)).RetA x p ↔ p.val = (G x).exp) :=
  ⟨(pmfPair (some F) none).retA_iff_over rfl x p, (pmfPair (some F) none).retB_iff_dflt rfl rfl x l,
   (pmfPair none (some G)).retB_iff_over rfl x l,
   ((pmfPair none (some G)).retA_iff_dflt rfl rfl x p).trans ⟨fun h => h ▸ rfl, fun h => Probability.ext h⟩⟩

/-- C21: when only one of `pdf`, `log_pdf` is overridden, the other returns, and returns its logarithm or exponential -/
theorem C21_pdf_defaults (f g : X → F64) (x : X) (l : F64) :
    ((pdfPair (some f) none).RetA x l ↔ l = f x) ∧ ((pdfPair (some f) none).RetB x l ↔ l = (f x).ln) ∧
    ((pdfPair none (some g)).RetB x l ↔ l = g x) ∧ ((pdfPair none (some g)).RetA x l ↔ l = (g x).exp) :=
  ⟨(pdfPair (some f) none).retA_iff_over rfl x l, (pdfPair (some f) none).retB_iff_dflt rfl rfl x l,
   (pdfPair none (some g)).retB_iff_over rfl x l, (pdfPair none (some g)).retA_iff_dflt rfl rfl x l⟩

/-- C21: whichever is overridden (one of the two), where the pdf is a positive number, pdf = exp(log_pdf) exactly -/
theorem C21_pdf_is_exp_log_pdf [FP.Exact] (f? g? : Option (X → F64)) (hone : f? = none ∨ g? = none)
    (x : X) (a b : F64) (ha : (pdfPair f? g?).RetA x a) (hb : (pdfPair f? g?).RetB x b)
    (r s : ℝ) (hr : a.Is r) (hs : b.Is s) (hpos : 0 < r) : r = Real.exp s := by
  rcases f? with _ | f <;> rcases g? with _ | g
  · exact absurd ha (((pdfPair (X := X) none none).not_ret rfl rfl x).1 a)
  · rw [(pdfPair none (some g)).retA_iff_dflt rfl rfl] at ha
    rw [(pdfPair none (some g)).retB_iff_over rfl] at hb
    subst hb ha; exact hr.eq (F64.Is.exp hs)
  · rw [(pdfPair (some f) none).retB_iff_dflt rfl rfl] at hb
    rw [(pdfPair (some f) none).retA_iff_over rfl] at ha
    subst hb ha; rw [hs.eq (F64.Is.ln hr hpos), Real.exp_log hpos]
  · simp at hone

/-- C21: whichever is overridden (one of the two), where the pmf is a positive number, pmf = exp(log_pmf) exactly -/
theorem C21_pmf_is_exp_log_pmf [FP.Exact] (F? : Option (X → Probability)) (g? : Option (X → F64))
    (hone : F? = none ∨ g? = none)
    (x : X) (a : Probability) (b : F64) (ha : (pmfPair F? g?).RetA x a) (hb : (pmfPair F? g?).RetB x b)
    (r s : ℝ) (hr : a.val.Is r) (hs : b.Is s) (hpos : 0 < r) : r = Real.exp s := by
  rcases F? with _ | f <;> rcases g? with _ | g
  · exact absurd ha (((pmfPair (X := X) none none).not_ret rfl rfl x).1 a)
  · rw [(pmfPair none (some g)).retA_iff_dflt rfl rfl] at ha
    rw [(pmfPair none (some g)).retB_iff_over rfl] at hb
    subst hb ha; exact hr.eq (F64.Is.exp hs)
  · rw [(pmfPair (some f) none).retB_iff_dflt rfl rfl] at hb
    rw [(pmfPair (some f) none).retA_iff_over rfl] at ha
    subst hb ha; rw [hs.eq (F64.Is.ln hr hpos), Real.exp_log hpos]
  · simp at hone

/-- C21: overriding neither diverges -/
theorem C21_neither_diverges (x : X) :
    (∀ p, ¬ (pmfPair (X := X) none none).RetA x p) ∧ (∀ l, ¬ (pmfPair (X := X) none none).RetB x l) ∧
    (∀ p, ¬ (pdfPair (X := X) none none).RetA x p) ∧ (∀ l, ¬ (pdfPair (X := X) none none).RetB x l) :=
  ⟨((pmfPair (X := X) none none).not_ret rfl rfl x).1, ((pmfPair (X := X) none none).not_ret rfl rfl x).2,
   ((pdfPair (X := X) none none).not_ret rfl rfl x).1, ((pdfPair (X := X) none none).not_ret rfl rfl x).2⟩

/-- a zero probability has log -inf -/
theorem C21_zero_mass_log (F : X → Probability) (x : X) (h : (F x).val.Is 0) :
    (pmfPair (some F) none).RetB x ninf := by
  rw [(pmfPair (some F) none).retB_iff_dflt rfl rfl]
  change ninf = (F x).val.ln
  rcases h with h | ⟨h, _⟩ <;> simp [h, F64.ln, F64.logWith]
end C21

section
attribute [local instance] exactFP exactFP_exact
example : (pdfPair (X := ℝ) (some fun x => fin x) none).RetB 2 (F64.ln (fin 2)) :=
  ((C21_pdf_defaults (fun x : ℝ => fin x) (fun x => fin x) 2 _).2.1).2 rfl
end

/-! ### C22 -/
section C22
variable [FP]
/-- C22: standard_deviation² = variance in exact arithmetic, whichever is overridden -/
theorem C22_std_squared [FP.Exact] (v? s? : Option F64) (hone : v? = none ∨ s? = none) (v s : F64) (a b : ℝ)
    (hv : (variancePair v? s?).RetA () v) (hs : (variancePair v? s?).RetB () s) (ha : v.Is a) (hb : s.Is b)
    (ha0 : 0 ≤ a) : b ^ 2 = a ∧ (v? ≠ none → b = Real.sqrt a) := by
  rcases v? with _ | v' <;> rcases s? with _ | s'
  · exact absurd hv (((variancePair none none).not_ret rfl rfl ()).1 v)
  · rw [(variancePair none (some s')).retA_iff_dflt rfl rfl] at hv
    rw [(variancePair none (some s')).retB_iff_over rfl] at hs
    subst hv hs
    have := ha.eq (F64.Is.mul hb hb)
    exact ⟨by rw [this]; ring, by simp⟩
  · rw [(variancePair (some v') none).retA_iff_over rfl] at hv
    rw [(variancePair (some v') none).retB_iff_dflt rfl rfl] at hs
    subst hv hs
    have := hb.eq (F64.Is.sqrt ha ha0)
    exact ⟨by rw [this, Real.sq_sqrt ha0], fun _ => this⟩
  · simp at hone

/-- C22: kurtosis = excess + 3, whichever is overridden -/
theorem C22_kurtosis [FP.Exact] (k? e? : Option F64) (hone : k? = none ∨ e? = none) (k e : F64) (a b : ℝ)
    (hk : (kurtosisPair k? e?).RetA () k) (he : (kurtosisPair k? e?).RetB () e) (ha : k.Is a) (hb : e.Is b) :
    a = b + 3 := by
  rcases k? with _ | k' <;> rcases e? with _ | e'
  · exact absurd hk (((kurtosisPair none none).not_ret rfl rfl ()).1 k)
  · rw [(kurtosisPair none (some e')).retA_iff_dflt rfl rfl] at hk
    rw [(kurtosisPair none (some e')).retB_iff_over rfl] at he
    subst hk he
    exact ha.eq (F64.Is.add hb (Is.num 3))
  · rw [(kurtosisPair (some k') none).retA_iff_over rfl] at hk
    rw [(kurtosisPair (some k') none).retB_iff_dflt rfl rfl] at he
    subst hk he
    rw [hb.eq (F64.Is.sub ha (Is.num 3))]; ring
  · simp at hone

/-- C22: as soon as one of a pair is given both calls return; with neither, neither returns -/
theorem C22_returns (v? s? : Option F64) :
    ((v? ≠ none ∨ s? ≠ none) → (∃ v, (variancePair v? s?).RetA () v) ∧ ∃ s, (variancePair v? s?).RetB () s) ∧
    ((v? ≠ none ∨ s? ≠ none) → (∃ v, (kurtosisPair v? s?).RetA () v) ∧ ∃ s, (kurtosisPair v? s?).RetB () s) ∧
    ((v? = none ∧ s? = none) → (∀ v, ¬ (variancePair v? s?).RetA () v) ∧ (∀ v, ¬ (kurtosisPair v? s?).RetA () v)) := by
  refine ⟨fun h => ?_, fun h => ?_, ?_⟩
  · rcases v? with _ | v <;> rcases s? with _ | s
    · simp at h
    · exact ⟨⟨_, 2, MethodPair.callA_dflt _ rfl rfl 0 ()⟩, ⟨_, 1, MethodPair.callB_over _ rfl 0 ()⟩⟩
    · exact ⟨⟨_, 1, MethodPair.callA_over _ rfl 0 ()⟩, ⟨_, 2, MethodPair.callB_dflt _ rfl rfl 0 ()⟩⟩
    · exact ⟨⟨_, 1, MethodPair.callA_over _ rfl 0 ()⟩, ⟨_, 1, MethodPair.callB_over _ rfl 0 ()⟩⟩
  · rcases v? with _ | v <;> rcases s? with _ | s
    · simp at h
    · exact ⟨⟨_, 2, MethodPair.callA_dflt _ rfl rfl 0 ()⟩, ⟨_, 1, MethodPair.callB_over _ rfl 0 ()⟩⟩
    · exact ⟨⟨_, 1, MethodPair.callA_over _ rfl 0 ()⟩, ⟨_, 2, MethodPair.callB_dflt _ rfl rfl 0 ()⟩⟩
    · exact ⟨⟨_, 1, MethodPair.callA_over _ rfl 0 ()⟩, ⟨_, 1, MethodPair.callB_over _ rfl 0 ()⟩⟩
  · rintro ⟨rfl, rfl⟩
    exact ⟨((variancePair none none).not_ret rfl rfl ()).1, ((kurtosisPair none none).not_ret rfl rfl ()).1⟩
end C22

section
attribute [local instance] exactFP exactFP_exact
example : (variancePair (some (fin 4)) none).RetB () (F64.sqrt (fin 4)) := ⟨2, rfl⟩
end

/-! ### C23 -/
section C23
variable [FP]
/-- C23: quantile and cquantile mirror each other -/
theorem C23_quantile_cquantile (Q : Probability → F64) (p : Probability) (x : F64) :
    ((quantilePair (some Q) none).RetB p x ↔ x = Q ⟨1 - p.val⟩) ∧
    ((quantilePair none (some Q)).RetA p x ↔ x = Q ⟨1 - p.val⟩) ∧
    (∀ y, ¬ (quantilePair none none).RetA p y) :=
  ⟨(quantilePair (some Q) none).retB_iff_dflt rfl rfl p x, (quantilePair none (some Q)).retA_iff_dflt rfl rfl p x,
   ((quantilePair none none).not_ret rfl rfl p).1⟩

/-- C23: exact values of the derived statistics -/
theorem C23_values [FP.Exact] (Q : Probability → F64) (q1 q2 q3 : ℝ) (h1 : (Q ⟨fin (1/4)⟩).Is q1)
    (h2 : (Q ⟨fin (1/2)⟩).Is q2) (h3 : (Q ⟨fin (3/4)⟩).Is q3) :
    (lowerQuartile Q).Is q1 ∧ (median Q).Is q2 ∧ (upperQuartile Q).Is q3 ∧ (iqr Q).Is (q3 - q1) ∧
    (lowerFence Q).Is (q1 - 1.5 * (q3 - q1)) ∧ (upperFence Q).Is (q3 + 1.5 * (q3 - q1)) := by
  have hi : (iqr Q).Is (q3 - q1) := h3.sub h1
  have h15 : (fin (3 / 2) * iqr Q).Is (1.5 * (q3 - q1)) := ((Is.fin (3/2)).mul hi).congr (by norm_num)
  exact ⟨h1, h2, h3, hi, h1.sub h15, h3.add h15⟩

/-- C23: with a quantile function that is monotone on the probabilities inside `(0,1)` the five numbers are ordered, in every
lawful arithmetic (the outer quartiles are representable finite numbers; the fences may even overflow) -/
theorem C23_ordered [FP.Lawful] (Q : Probability → F64)
    (hmono : ∀ p q : Probability, 0 < p.val → p.val ≤ q.val → q.val < 1 → Q p ≤ Q q) (q1 q3 : ℝ)
    (h1 : (Q ⟨fin (1/4)⟩).Rep q1) (h3 : (Q ⟨fin (3/4)⟩).Rep q3) :
    lowerFence Q ≤ lowerQuartile Q ∧ lowerQuartile Q ≤ median Q ∧ median Q ≤ upperQuartile Q ∧
    upperQuartile Q ≤ upperFence Q ∧ (0 : F64) ≤ iqr Q := by
  have hm : ∀ r s : ℝ, 0 < r → r ≤ s → s < 1 → Q ⟨fin r⟩ ≤ Q ⟨fin s⟩ := fun r s h h' h'' =>
    hmono _ _ (fin_lt_fin.2 h) (fin_le_fin.2 h') (fin_lt_fin.2 h'')
  have h13 : Q ⟨fin (1/4)⟩ ≤ Q ⟨fin (3/4)⟩ := hm _ _ (by norm_num) (by norm_num) (by norm_num)
  have hi : (0 : F64) ≤ iqr Q := sub_nonneg_of_le h3.1 h1.1 ((h1.1.le_iff h3.1).1 h13)
  have hy := mul_nonneg_of (show (0 : ℝ) < 3 / 2 by norm_num) hi
  exact ⟨sub_le_self_of h1 hy, hm _ _ (by norm_num) (by norm_num) (by norm_num), hm _ _ (by norm_num) (by norm_num) (by norm_num),
    le_add_self_of h3 hy, hi⟩
end C23

section
attribute [local instance] exactFP exactFP_exact
/-- non-vacuity: the identity quantile (uniform on [0,1]) -/
example : lowerFence (fun p => p.val) ≤ lowerQuartile (fun p => p.val) := by
  have rep : ∀ r : ℝ, (fin r).Rep r := fun r => ⟨Is.fin r, FP.Exact.rnd_id r, FP.Exact.no_huge r⟩
  exact (C23_ordered (fun p => p.val) (fun _ _ _ h _ => h) _ _ (rep _) (rep _)).1
end

/-! ### C24 -/
section C24
variable {σ X : Type}
/-- specification: RNG state after `k` draws, and the `k`-th draw -/
def Spec.stateAfter (sample : σ → X × σ) (k : ℕ) (s : σ) : σ := (fun s => (sample s).2)^[k] s
def Spec.draw (sample : σ → X × σ) (k : ℕ) (s : σ) : X := (sample (Spec.stateAfter sample k s)).1

/-- C24: sample_n(n) is exactly the first n successive `sample` calls, and leaves the RNG where they leave it -/
theorem C24_sample_n (sample : σ → X × σ) (n : ℕ) (s : σ) :
    (sampleN sample n s).1 = (List.range n).map (fun k => Spec.draw sample k s) ∧
    (sampleN sample n s).2 = Spec.stateAfter sample n s := by
  induction n generalizing s with
  | zero => simp [sampleN, Spec.stateAfter]
  | succ n ih =>
    obtain ⟨h1, h2⟩ := ih (sample s).2
    simp only [sampleN, h1, h2, List.range_succ_eq_map, List.map_cons, List.map_map]
    exact ⟨rfl, rfl⟩

/-- C24: `sample_n` yields exactly `n` samples -/
theorem C24_sample_n_length (sample : σ → X × σ) (n : ℕ) (s : σ) : (sampleN sample n s).1.length = n := by
  simp [C24_sample_n]

/-- C24: splitting -/
theorem C24_sample_n_append (sample : σ → X × σ) (n m : ℕ) (s : σ) :
    (sampleN sample (n + m) s).1 = (sampleN sample n s).1 ++ (sampleN sample m (sampleN sample n s).2).1 ∧
    (sampleN sample (n + m) s).2 = (sampleN sample m (sampleN sample n s).2).2 := by
  induction n generalizing s with
  | zero => simp [sampleN]
  | succ n ih =>
    obtain ⟨h1, h2⟩ := ih (sample s).2
    rw [Nat.succ_add]
    simp [sampleN, h1, h2]

/-- C24: the first n items of the iterator are sample_n(n), with the same final RNG state -/
theorem C24_sample_iter (sample : σ → X × σ) (n : ℕ) (s : σ) :
    ((⟨sample, s⟩ : Sampler σ X).takeN n).1 = (sampleN sample n s).1 ∧
    ((⟨sample, s⟩ : Sampler σ X).takeN n).2.rng = (sampleN sample n s).2 := by
  induction n generalizing s with
  | zero => simp [Sampler.takeN, sampleN]
  | succ n ih =>
    obtain ⟨h1, h2⟩ := ih (sample s).2
    simp [Sampler.takeN, Sampler.next, sampleN, h1, h2]

/-- C24: the iterator never ends -/
theorem C24_iter_never_ends (sample : σ → X × σ) (n : ℕ) (s : σ) :
    ((⟨sample, s⟩ : Sampler σ X).takeN n).1.length = n ∧
    (((⟨sample, s⟩ : Sampler σ X).takeN n).2.next).1 ≠ none := by
  refine ⟨by rw [(C24_sample_iter sample n s).1, C24_sample_n_length], by simp [Sampler.next]⟩
end C24

example : (sampleN (fun s : ℕ => (s * s, s + 1)) 4 2).1 = [4, 9, 16, 25] := rfl

/-! ### C25 -/
section C25
variable {S D O : Type}
/-- specification: one more convolution, unless an error already occurred -/
def Spec.step (conv : O → D → Except Err O) (acc : Except Err O) (rv : D) : Except Err O :=
  match acc with
  | .ok o => conv o rv
  | .error e => .error e
/-- specification: convolve in the given order, first error wins -/
def Spec.chain (conv0 : S → D → Except Err O) (conv : O → D → Except Err O) (self : S) : List D → Option (Except Err O)
  | [] => none
  | d :: ds => some (ds.foldl (Spec.step conv) (conv0 self d))

/-- C25 at full strength: some order in which every element is used exactly once, for every non-empty list -/
def C25_full : Prop := ∀ (S D O : Type) (conv0 : S → D → Except Err O) (conv : O → D → Except Err O) (self : S)
  (rvs : List D), rvs ≠ [] →
  ∃ order : List D, order.Perm rvs ∧ Spec.chain conv0 conv self order = some (convolveMany conv0 conv self rvs)

/-- C25 for two or more distributions; the order is: last, then first to last-but-one -/
theorem C25_convolve_many_partial (conv0 : S → D → Except Err O) (conv : O → D → Except Err O) (self : S)
    (rvs : List D) (h : 2 ≤ rvs.length) :
    ∃ order : List D, order.Perm rvs ∧ Spec.chain conv0 conv self order = some (convolveMany conv0 conv self rvs) := by
  have hne : rvs ≠ [] := by rintro rfl; simp at h
  refine ⟨rvs.getLast hne :: rvs.dropLast, ?_, ?_⟩
  · conv_rhs => rw [← List.dropLast_append_getLast hne]
    exact (List.perm_append_comm (l₁ := [_]))
  · have hc : (Cst.greaterThan (s := .usize) (1 : ℕ)).check rvs.length = .ok rvs.length := by
      rw [Cst.check_ok_iff]
      refine ⟨?_, rfl⟩
      simp only [Cst.sat, decide_eq_true_eq]; exact h
    unfold convolveMany Spec.chain
    rw [hc]
    simp only [List.getLast?_eq_some_getLast hne]
    congr 2
    funext acc rv
    cases acc <;> rfl

/-- a singleton list is refused although one convolution would do -/
theorem C25_singleton_refused_violated (conv0 : S → D → Except Err O) (conv : O → D → Except Err O) (self : S) (rv : D) :
    ∃ e, convolveMany conv0 conv self [rv] = .error e := by
  have hs : (Cst.greaterThan (s := .usize) (1 : ℕ)).sat (1 : ℕ) = false := by
    simp only [Cst.sat, decide_eq_false_iff_not]; exact (Nat.lt_irrefl 1)
  obtain ⟨c', hc, _⟩ := ((Cst.greaterThan (s := .usize) (1 : ℕ)).check_spec (1 : ℕ)).2 hs
  exact ⟨_, by unfold convolveMany; rw [show ([rv] : List D).length = 1 from rfl, hc]⟩

/-- C25 (violation): `convolve_many` in full is false: a one-element collection is refused -/
theorem C25_violated : ¬ C25_full := by
  intro h
  obtain ⟨order, hp, hc⟩ := h Unit Unit Unit (fun _ _ => .ok ()) (fun _ _ => .ok ()) () [()] (by simp)
  obtain ⟨e, he⟩ := C25_singleton_refused_violated (fun _ _ => .ok () : Unit → Unit → Except Err Unit) (fun _ _ => .ok ()) () ()
  rw [he] at hc
  have : order = [()] := List.perm_singleton.1 hp
  subst this
  simp [Spec.chain] at hc

/-- for an additive, never failing convolution (normal, Poisson, Cauchy, ...) convolve_many adds everything up -/
theorem C25_additive_partial (self : ℝ) (rvs : List ℝ) (h : 2 ≤ rvs.length) :
    convolveMany (fun a b => .ok (a + b)) (fun a b => .ok (a + b)) self rvs = .ok (self + rvs.sum) := by
  obtain ⟨order, hp, hc⟩ := C25_convolve_many_partial (fun a b : ℝ => .ok (a + b)) (fun a b => .ok (a + b)) self rvs h
  rw [← hp.sum_eq]
  have key : ∀ (l : List ℝ) (a : ℝ),
      l.foldl (Spec.step (fun a b : ℝ => .ok (a + b))) (.ok a) = .ok (a + l.sum) := by
    intro l
    induction l with
    | nil => intro a; simp
    | cons b l ih => intro a; simp [Spec.step, ih, add_assoc]
  cases order with
  | nil => simp [Spec.chain] at hc
  | cons d ds =>
    simp only [Spec.chain, Option.some.injEq, key] at hc
    rw [← hc]; simp [add_assoc]
end C25

example : convolveMany (fun a b : ℝ => .ok (a + b)) (fun a b => .ok (a + b)) 1 [2, 3, 4] = .ok 10 := by
  rw [C25_additive_partial _ _ (by simp)]; norm_num

/-! ### C26 -/
section C26
variable [FP]

/-- C26: the default variance is the diagonal of the covariance -/
theorem C26_variance_is_diagonal {N : ℕ} (cov : Fin N → Fin N → F64) (i : Fin N) : mvVariance cov i = cov i i := rfl

/-- C26 (correlation half) at full strength -/
def C26_correlation_full [FP.Exact] : Prop := ∀ (N : ℕ) (cov : Fin N → Fin N → F64) (c : Fin N → Fin N → ℝ),
  (∀ i j, (cov i j).Is (c i j)) → (∀ i, 0 < c i i) →
  ∀ i j, (mvCorrelation cov i j).Is (c i j / Real.sqrt (c i i * c j j))

/-- what the code computes: the covariance is multiplied by the standard deviations instead of divided -/
theorem C26_correlation_is_product_violated [FP.Exact] (N : ℕ) (cov : Fin N → Fin N → F64) (c : Fin N → Fin N → ℝ)
    (h : ∀ i j, (cov i j).Is (c i j)) (hp : ∀ i, 0 < c i i) (i j : Fin N) :
    (mvCorrelation cov i j).Is (c i j * Real.sqrt (c i i * c j j)) :=
  (h i j).mul (F64.Is.sqrt ((h i i).mul (h j j)) (mul_pos (hp i) (hp j)).le)

/-- unit variances are the case where it is right -/
theorem C26_correlation_unit_variance_partial [FP.Exact] (N : ℕ) (cov : Fin N → Fin N → F64) (c : Fin N → Fin N → ℝ)
    (h : ∀ i j, (cov i j).Is (c i j)) (hp : ∀ i, c i i = 1) (i j : Fin N) :
    (mvCorrelation cov i j).Is (c i j / Real.sqrt (c i i * c j j)) := by
  have := C26_correlation_is_product_violated N cov c h (fun i => by rw [hp]; exact one_pos) i j
  refine this.congr ?_
  rw [hp, hp]; simp

/-- C26 (violation): the default correlation is not the correlation: it multiplies by the standard deviations -/
theorem C26_correlation_violated [FP.Exact] : ¬ C26_correlation_full := by
  intro h
  have h1 := h 1 (fun _ _ => fin 2) (fun _ _ => 2) (fun _ _ => Is.fin 2) (fun _ => by norm_num) 0 0
  have h2 := C26_correlation_is_product_violated 1 (fun _ _ => fin 2) (fun _ _ => 2) (fun _ _ => Is.fin 2)
    (fun _ => by norm_num) 0 0
  have e := h1.eq h2
  rw [show (2 : ℝ) * 2 = 2 ^ 2 by norm_num, Real.sqrt_sq (by norm_num)] at e
  norm_num at e
end C26

section
attribute [local instance] exactFP exactFP_exact
example : ¬ C26_correlation_full := C26_correlation_violated
end

/-! ### C27 -/
section C27
variable [FP] {X : Type}
/-- C27: when only one of `likelihood`, `log_likelihood` is overridden the other is its logarithm or exponential; when neither is, no call returns -/
theorem C27_likelihood_defaults (f : List X → F64) (xs : List X) (y : F64) :
    ((likelihoodPair (some f) none).RetB xs y ↔ y = (f xs).ln) ∧
    ((likelihoodPair none (some f)).RetA xs y ↔ y = (f xs).exp) ∧
    (∀ z, ¬ (likelihoodPair (X := X) none none).RetA xs z) :=
  ⟨(likelihoodPair (some f) none).retB_iff_dflt rfl rfl xs y, (likelihoodPair none (some f)).retA_iff_dflt rfl rfl xs y,
   ((likelihoodPair (X := X) none none).not_ret rfl rfl xs).1⟩

/-- C27: likelihood = exp(log_likelihood) whichever is overridden -/
theorem C27_likelihood [FP.Exact] (f? g? : Option (List X → F64)) (hone : f? = none ∨ g? = none) (xs : List X)
    (a b : F64) (ha : (likelihoodPair f? g?).RetA xs a) (hb : (likelihoodPair f? g?).RetB xs b)
    (r s : ℝ) (hr : a.Is r) (hs : b.Is s) (hpos : 0 < r) : r = Real.exp s :=
  C21_pdf_is_exp_log_pdf f? g? hone xs a b ha hb r s hr hs hpos

/-- C27: d_mahalanobis² = d_mahalanobis_squared whichever is overridden -/
theorem C27_mahalanobis [FP.Exact] (d? q? : Option (X → F64)) (hone : d? = none ∨ q? = none) (x : X) (a b : F64)
    (ha : (mahalanobisPair d? q?).RetA x a) (hb : (mahalanobisPair d? q?).RetB x b)
    (r s : ℝ) (hr : a.Is r) (hs : b.Is s) (h0 : 0 ≤ s) : r ^ 2 = s := by
  rcases d? with _ | f <;> rcases q? with _ | g
  · exact absurd ha (((mahalanobisPair (X := X) none none).not_ret rfl rfl x).1 a)
  · rw [(mahalanobisPair none (some g)).retA_iff_dflt rfl rfl] at ha
    rw [(mahalanobisPair none (some g)).retB_iff_over rfl] at hb
    subst hb ha
    rw [hr.eq (F64.Is.sqrt hs h0), Real.sq_sqrt h0]
  · rw [(mahalanobisPair (some f) none).retB_iff_dflt rfl rfl] at hb
    rw [(mahalanobisPair (some f) none).retA_iff_over rfl] at ha
    subst hb ha; exact (hs.eq (F64.Is.powi2 hr)).symm
  · simp at hone
end C27

end Rstat
