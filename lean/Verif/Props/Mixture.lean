import Verif.Model.Mixture
import Verif.Props.Probability
import Verif.Lemmas.Law
import Verif.Float.ExactInst
import Mathlib.Algebra.BigOperators.Fin
import Mathlib.MeasureTheory.Integral.Bochner.Set
import Mathlib.Algebra.BigOperators.Field

/-! Properties C32–C37: mixtures. -/
namespace Rstat
open F64

section
variable {C S P X σ : Type} [Support S]

/-! ### C32 -/

/-- specification: `I` is the interval hull of the intervals in `l`: it contains each of them and is contained in
every interval containing them all -/
def Spec.IsHull (l : List Interval) (I : Interval) : Prop :=
  (∀ J ∈ l, I.lo ≤ J.lo ∧ J.hi ≤ I.hi) ∧
  ∀ K : Interval, (∀ J ∈ l, K.lo ≤ J.lo ∧ J.hi ≤ K.hi) → K.lo ≤ I.lo ∧ I.hi ≤ K.hi

theorem foldl_hull (l : List Interval) (I : Interval) :
    Spec.IsHull (I :: l) (l.foldl (fun a b => Support.unionClosure a b) I) := by
  induction l generalizing I with
  | nil => exact ⟨by simp, fun K h => h I (by simp)⟩
  | cons J l ih =>
    rw [List.foldl_cons]
    obtain ⟨h1, h2⟩ := ih (Support.unionClosure I J)
    have hIJ := h1 _ (List.mem_cons_self ..)
    have e1 : (Support.unionClosure I J).lo = min I.lo J.lo := rfl
    have e2 : (Support.unionClosure I J).hi = max I.hi J.hi := rfl
    rw [e1, e2] at hIJ
    constructor
    · intro A hA
      rcases List.mem_cons.1 hA with rfl | hA
      · exact ⟨hIJ.1.trans (min_le_left _ _), (le_max_left _ _).trans hIJ.2⟩
      rcases List.mem_cons.1 hA with rfl | hA
      · exact ⟨hIJ.1.trans (min_le_right _ _), (le_max_right _ _).trans hIJ.2⟩
      · exact h1 A (by simp [hA])
    · intro K hK
      refine h2 K fun A hA => ?_
      rcases List.mem_cons.1 hA with rfl | hA
      · rw [e1, e2]
        exact ⟨le_min (hK I (by simp)).1 (hK J (by simp)).1, max_le (hK I (by simp)).2 (hK J (by simp)).2⟩
      · exact hK A (by simp [hA])

/-- inversion of a successful `new` -/
theorem Mixture.new_ok [FP] (D : Comp C S P X σ) (ws : List F64) (cs : List C) (m : Mixture C S)
    (h : Mixture.new D ws cs = .ok (.ok m)) : cs.length = ws.length ∧ Mixture.computeSupport D cs = .ok m.support ∧
      SimplexVector.new ws = .ok m.weights ∧ m.components = cs := by
  unfold Mixture.new at h
  split_ifs at h with hl
  · simp at h
  · cases h1 : Mixture.computeSupport D cs with
    | error e => rw [h1] at h; cases h
    | ok s =>
      rw [h1] at h; dsimp only at h
      cases h2 : SimplexVector.new ws with
      | error e => rw [h2] at h; simp at h
      | ok v =>
        rw [h2] at h
        simp only [Except.ok.injEq] at h
        subst h
        exact ⟨not_not.1 hl, rfl, rfl, rfl⟩

/-- C32: for equally many (≥ 1) weights and components, `Mixture::new` returns `m` exactly when the weights are an
accepted simplex vector, and then `m` holds the weights and the components as given (any support space) -/
theorem C32_new_iff [FP] (D : Comp C S P X σ) (ws : List F64) (cs : List C) (hlen : cs.length = ws.length)
    (hN : 1 ≤ ws.length) :
    (∃ m, Mixture.new D ws cs = .ok (.ok m)) ↔
      ((∀ p ∈ ws, Spec.InUnit p) ∧ (F64.sum ws - 1).abs < F64.lit (1 / 100000)) := by
  obtain ⟨c, cs', rfl⟩ : ∃ c cs', cs = c :: cs' := by
    cases cs with
    | nil => simp at hlen; omega
    | cons c cs' => exact ⟨c, cs', rfl⟩
  unfold Mixture.new
  rw [if_neg (by simpa using hlen)]
  simp only [Mixture.computeSupport]
  cases h : SimplexVector.new ws with
  | ok v =>
    have := (C05_simplex_new_iff ws v).1 h
    exact ⟨fun _ => this.2, fun _ => ⟨_, rfl⟩⟩
  | error e =>
    constructor
    · rintro ⟨m, hm⟩; simp at hm
    · intro h'
      have := (C05_simplex_new_iff ws ⟨ws⟩).2 ⟨rfl, h'⟩
      rw [h] at this; cases this

/-- C32: what is stored -/
theorem C32_new_keeps [FP] (D : Comp C S P X σ) (ws : List F64) (cs : List C) (m : Mixture C S)
    (h : Mixture.new D ws cs = .ok (.ok m)) : m.weights.ps = ws ∧ m.components = cs := by
  obtain ⟨_, _, h3, h4⟩ := Mixture.new_ok D ws cs m h
  exact ⟨((C05_simplex_new_iff ws _).1 h3).1, h4⟩

/-- C32: for interval supports the stored support is the interval hull of the component supports -/
theorem C32_new_support [FP] (D : Comp C Interval P X σ) (ws : List F64) (cs : List C) (m : Mixture C Interval)
    (h : Mixture.new D ws cs = .ok (.ok m)) : Spec.IsHull (cs.map D.support) m.support := by
  obtain ⟨_, h2, _, _⟩ := Mixture.new_ok D ws cs m h
  cases cs with
  | nil => cases h2
  | cons c cs =>
    simp only [Mixture.computeSupport, Except.ok.injEq] at h2
    rw [List.map_cons, ← h2]
    have := foldl_hull (cs.map D.support) (D.support c)
    rwa [List.foldl_map] at this

/-- C32: rejected weights give the simplex error, never a panic -/
theorem C32_new_error [FP] (D : Comp C S P X σ) (ws : List F64) (cs : List C) (hlen : cs.length = ws.length)
    (hN : 1 ≤ ws.length) (e : SimplexError) (h : SimplexVector.new ws = .error e) :
    Mixture.new D ws cs = .ok (.error (.simplex e)) := by
  cases cs with
  | nil => simp at hlen; omega
  | cons c cs =>
    unfold Mixture.new
    rw [if_neg (by simpa using hlen)]
    simp only [Mixture.computeSupport, h]

/-- C32: with N = 0 `new` and `new_unchecked` panic (index out of bounds) instead of returning an error -/
theorem C32_empty_panics [FP] (D : Comp C S P X σ) :
    Mixture.new D [] [] = .error .index ∧ Mixture.newUnchecked D [] [] = .error .index := ⟨rfl, rfl⟩

end

/-! ### C33, C35 : exact arithmetic. `Mix w c s` is the mixture with real weights `w i` and components `c i`. -/
section
variable {C S P X σ : Type}

/-- the mixture of `N` components `c i` with weights `w i` -/
noncomputable def Mix {N : ℕ} (w : Fin N → ℝ) (c : Fin N → C) (s : S) : Mixture C S :=
  ⟨⟨List.ofFn fun i => F64.fin (w i)⟩, List.ofFn c, s⟩

theorem zip_ofFn {N : ℕ} {A B : Type} (f : Fin N → A) (g : Fin N → B) :
    (List.ofFn f).zip (List.ofFn g) = List.ofFn fun i => (f i, g i) := by
  apply List.ext_getElem
  · simp
  · intro i h1 h2; simp

theorem Mix_zipped {N : ℕ} (w : Fin N → ℝ) (c : Fin N → C) (s : S) :
    (Mix w c s).zipped = List.ofFn fun i => (c i, F64.fin (w i)) := zip_ofFn _ _

theorem sum_ofFn_is [FP] [FP.Exact] {N : ℕ} (f : Fin N → F64) (g : Fin N → ℝ) (h : ∀ i, (f i).Is (g i)) :
    (F64.sum (List.ofFn f)).Is (∑ i, g i) := by
  have := Is.sum_map (List.finRange N) f g (fun a _ => h a)
  rw [← List.ofFn_eq_map, ← List.ofFn_eq_map, List.sum_ofFn] at this
  exact this

/-- C33: the mixture cdf is the weighted sum of the component cdfs -/
theorem C33_cdf [FP] [FP.Exact] {N : ℕ} (D : Comp C S P X σ) (w : Fin N → ℝ) (c : Fin N → C) (s : S) (x : X)
    (F : Fin N → ℝ) (hF : ∀ i, (D.cdf (c i) x).val.Is (F i)) :
    ((Mix w c s).cdf D x).val.Is (∑ i, w i * F i) := by
  unfold Mixture.cdf
  rw [Mix_zipped, List.map_ofFn]
  exact sum_ofFn_is _ _ fun i => (Is.fin (w i)).mul (hF i)

/-- C33: the mixture pdf is the weighted sum of the component pdfs -/
theorem C33_pdf [FP] [FP.Exact] {N : ℕ} (D : Comp C S P X σ) (w : Fin N → ℝ) (c : Fin N → C) (s : S) (x : X)
    (f : Fin N → ℝ) (hf : ∀ i, (D.pdf (c i) x).Is (f i)) :
    ((Mix w c s).pdf D x).Is (∑ i, w i * f i) := by
  unfold Mixture.pdf
  rw [Mix_zipped, List.map_ofFn]
  exact sum_ofFn_is _ _ fun i => (Is.fin (w i)).mul (hf i)

theorem isCDF_sum {N : ℕ} (w : Fin N → ℝ) (hw : ∀ i, 0 ≤ w i) (h1 : ∑ i, w i = 1) (F : Fin N → ℝ → ℝ)
    (hF : ∀ i, Spec.IsCDF (F i)) : Spec.IsCDF fun x => ∑ i, w i * F i x := by
  refine ⟨fun x y hxy => Finset.sum_le_sum fun i _ => mul_le_mul_of_nonneg_left ((hF i).mono hxy) (hw i), fun x => ?_,
    ?_, ?_⟩
  · exact tendsto_finsetSum _ fun i _ => ((hF i).rightCont x).const_mul (w i)
  · have := tendsto_finsetSum Finset.univ fun i _ => ((hF i).bot.const_mul (w i))
    simpa using this
  · have := tendsto_finsetSum Finset.univ fun i _ => ((hF i).top.const_mul (w i))
    simpa [h1] using this

open MeasureTheory in
theorem isDensity_sum {N : ℕ} (w : Fin N → ℝ) (hw : ∀ i, 0 ≤ w i) (h1 : ∑ i, w i = 1) (f F : Fin N → ℝ → ℝ)
    (h : ∀ i, Spec.IsDensityOf (f i) (F i)) :
    Spec.IsDensityOf (fun x => ∑ i, w i * f i x) fun x => ∑ i, w i * F i x := by
  refine ⟨fun x => Finset.sum_nonneg fun i _ => mul_nonneg (hw i) ((h i).nonneg x),
    integrable_finsetSum _ fun i _ => (h i).integrable.const_mul (w i), ?_, fun x => ?_⟩
  · rw [integral_finsetSum _ fun i _ => (h i).integrable.const_mul (w i)]
    simp only [integral_const_mul, (h _).total, mul_one, h1]
  · rw [integral_finsetSum _ fun i _ => ((h i).integrable.const_mul (w i)).integrableOn]
    simp only [integral_const_mul, ← (h _).cdf]

/-- C33: if the weights sum to one and every component has a valid distribution function with its pdf as density, then
so has the mixture: the computed cdf is a valid distribution function and the computed pdf its density -/
theorem C33_valid [FP] [FP.Exact] {N : ℕ} (D : Comp C S P F64 σ) (w : Fin N → ℝ) (c : Fin N → C) (s : S)
    (hw : ∀ i, 0 ≤ w i) (h1 : ∑ i, w i = 1) (f F : Fin N → ℝ → ℝ)
    (hFc : ∀ i x, (D.cdf (c i) (F64.fin x)).val.Is (F i x)) (hfc : ∀ i x, (D.pdf (c i) (F64.fin x)).Is (f i x))
    (hF : ∀ i, Spec.IsCDF (F i)) (hf : ∀ i, Spec.IsDensityOf (f i) (F i)) :
    ∃ G g : ℝ → ℝ, Spec.IsCDF G ∧ Spec.IsDensityOf g G ∧
      (∀ x, ((Mix w c s).cdf D (F64.fin x)).val.Is (G x)) ∧ (∀ x, ((Mix w c s).pdf D (F64.fin x)).Is (g x)) :=
  ⟨_, _, isCDF_sum w hw h1 F hF, isDensity_sum w hw h1 f F hf,
    fun x => C33_cdf D w c s _ _ fun i => hFc i x, fun x => C33_pdf D w c s _ _ fun i => hfc i x⟩

/-! ### C34 -/

/-- C34 (partial): with weights summing exactly to one, exact arithmetic gives a cdf in [0,1]. The full claim is false
(`C34_cdf_in_unit_violated`). -/
theorem C34_cdf_in_unit_partial [FP] [FP.Exact] {N : ℕ} (D : Comp C S P X σ) (w : Fin N → ℝ) (c : Fin N → C) (s : S)
    (x : X) (hw : ∀ i, 0 ≤ w i) (h1 : ∑ i, w i = 1) (hv : ∀ i, (D.cdf (c i) x).isValid) :
    ((Mix w c s).cdf D x).isValid := by
  have hF : ∀ i, ∃ r, (D.cdf (c i) x).val.Is r ∧ 0 ≤ r ∧ r ≤ 1 := fun i => (unit_iff _).1 ⟨(hv i).2, (hv i).1⟩
  choose F hF0 hF1 hF2 using hF
  have := C33_cdf D w c s x F hF0
  have h := (unit_iff _).2 ⟨_, this, Finset.sum_nonneg fun i _ => mul_nonneg (hw i) (hF1 i), ?_⟩
  · exact ⟨h.2, h.1⟩
  · calc ∑ i, w i * F i ≤ ∑ i, w i * 1 := Finset.sum_le_sum fun i _ => mul_le_mul_of_nonneg_left (hF2 i) (hw i)
      _ = 1 := by simpa using h1

/-- C34 (partial): for any rounding, an accepted mixture of at most 2^30 components with valid cdfs has cdf in
[0, 1 + 1.2e-5] -/
theorem C34_cdf_bound_partial [FP] [FP.Lawful] [Support S] (D : Comp C S P X σ) (ws : List F64) (cs : List C)
    (m : Mixture C S) (h : Mixture.new D ws cs = .ok (.ok m)) (hlen : ws.length ≤ 2 ^ 30) (x : X)
    (hv : ∀ c ∈ cs, (D.cdf c x).isValid) :
    ∃ y : ℝ, (m.cdf D x).val.Is y ∧ 0 ≤ y ∧ y ≤ 1 + 12 / 1000000 := by
  obtain ⟨hw, hc⟩ := C32_new_keeps D ws cs m h
  have hsv : SimplexVector.new ws = .ok m.weights := (Mixture.new_ok D ws cs m h).2.2.1
  have hsum := C06_simplex_exact_sum ws m.weights hsv hlen
  have hu := ((C05_simplex_new_iff ws m.weights).1 hsv).2.1
  rw [hw] at hsum
  unfold Mixture.cdf Mixture.zipped
  rw [hw, hc]
  set L := (cs.zip ws).map fun cp => cp.2 * (D.cdf cp.1 x).val with hL
  have hLlen : L.length ≤ ws.length := by rw [hL, List.length_map, List.length_zip]; exact min_le_right _ _
  -- each product is in the unit interval and exceeds its weight by at most 2^-52
  have hprod : ∀ cp ∈ cs.zip ws, ∃ t, (cp.2 * (D.cdf cp.1 x).val).Is t ∧ 0 ≤ t ∧ t ≤ 1 ∧
      t ≤ cp.2.toReal + 1 / 2 ^ 51 := by
    intro cp hcp
    obtain ⟨h1, h2⟩ := List.of_mem_zip hcp
    obtain ⟨r, hr, r0, r1⟩ := hu _ h2
    obtain ⟨q, hq, q0, q1⟩ := (unit_iff _).1 ⟨(hv _ h1).2, (hv _ h1).1⟩
    have hrq : r * q ≤ r := by nlinarith
    have hrq0 : 0 ≤ r * q := mul_nonneg r0 q0
    have := mul_is hr hq (not_huge_of_le 1 (by norm_num) (by rw [abs_of_nonneg hrq0]; push_cast; linarith))
    refine ⟨_, this, rnd_nonneg hrq0, rnd_le_one (hrq.trans r1), ?_⟩
    have herr := step_err (x := r * q) (by rw [abs_of_nonneg hrq0]; linarith)
    rw [abs_le] at herr
    rw [hr.toReal_eq]; linarith [herr.2]
  have hLu : ∀ p ∈ L, 0 ≤ p ∧ p ≤ 1 := by
    intro p hp
    obtain ⟨cp, hcp, rfl⟩ := List.mem_map.1 hp
    obtain ⟨t, ht, t0, t1, _⟩ := hprod cp hcp
    exact (unit_iff _).2 ⟨t, ht, t0, t1⟩
  have hLs : (L.map toReal).sum ≤ (ws.map toReal).sum + L.length * (1 / 2 ^ 51) := by
    have hnn : ∀ p ∈ ws, 0 ≤ p.toReal := fun p hp => by
      obtain ⟨r, hr, r0, _⟩ := hu p hp; rw [hr.toReal_eq]; exact r0
    have key : ∀ (cs' : List C) (ws' : List F64), (∀ p ∈ ws', 0 ≤ p.toReal) →
        (∀ cp ∈ cs'.zip ws', ∃ t, (cp.2 * (D.cdf cp.1 x).val).Is t ∧ 0 ≤ t ∧ t ≤ 1 ∧ t ≤ cp.2.toReal + 1 / 2 ^ 51) →
        (((cs'.zip ws').map fun cp => cp.2 * (D.cdf cp.1 x).val).map toReal).sum ≤
          (ws'.map toReal).sum + (cs'.zip ws').length * (1 / 2 ^ 51) := by
      intro cs' ws'
      induction ws' generalizing cs' with
      | nil => intro _ _; simp
      | cons a ws' ih =>
        intro ha hz
        have hs0 : 0 ≤ (ws'.map toReal).sum := List.sum_nonneg fun y hy => by
          obtain ⟨p, hp, rfl⟩ := List.mem_map.1 hy; exact ha p (by simp [hp])
        cases cs' with
        | nil => simp; linarith [ha a (by simp)]
        | cons b cs' =>
          simp only [List.zip_cons_cons, List.map_cons, List.sum_cons, List.length_cons]
          obtain ⟨t, ht, _, _, t2⟩ := hz (b, a) (by simp)
          have := ih cs' (fun p hp => ha p (by simp [hp])) (fun cp hcp => hz cp (by simp [hcp]))
          dsimp only at ht t2
          rw [ht.toReal_eq]; push_cast
          linarith
    have := key cs ws hnn hprod
    rwa [hL, List.length_map]
  have hLn : (L.length : ℝ) ≤ 2 ^ 30 := by exact_mod_cast hLlen.trans hlen
  have hsmall : (L.length : ℝ) * (1 / 2 ^ 51) ≤ 1 / 2 ^ 21 := by
    calc (L.length : ℝ) * (1 / 2 ^ 51) ≤ 2 ^ 30 * (1 / 2 ^ 51) := by gcongr
      _ = 1 / 2 ^ 21 := by norm_num
  rw [abs_le] at hsum
  norm_num at hsmall hsum hLs
  obtain ⟨y, hy, _, hy0, _⟩ := foldl_unit L 0 0 0 hLu Is.zero rnd_zero le_rfl (by simp)
    (by have := hLlen.trans hlen; norm_num at this ⊢; omega)
  obtain ⟨y', hy', herr⟩ := foldl_unit' L 0 0 hLu Is.zero le_rfl (by norm_num; linarith [hsum.2])
  have : y = y' := hy.eq hy'
  subst this
  refine ⟨y, hy, hy0, ?_⟩
  rw [abs_le] at herr
  norm_num at herr ⊢
  linarith [herr.2, hsum.2]

/-- C34 fails: weights `[1, 2^-18]` are accepted, and where both components have cdf 1 the mixture cdf is 1 + 2^-18 > 1,
for every lawful arithmetic (in particular binary64) -/
theorem C34_cdf_in_unit_violated [FP] [FP.Lawful] :
    ∃ (D : Comp Unit Interval Unit F64 Unit) (m : Mixture Unit Interval) (x : F64),
      Mixture.new D [F64.fin 1, F64.fin (1 / 2 ^ 18)] [(), ()] = .ok (.ok m) ∧
      (∀ c y, (D.cdf c y).isValid) ∧ ¬ (m.cdf D x).isValid := by
  let D : Comp Unit Interval Unit F64 Unit :=
    ⟨fun _ => ⟨⊥, ⊤⟩, id, id, fun _ _ => ⟨1⟩, fun _ _ => 0, fun _ => 0, fun _ => 0, fun _ s => (0, s)⟩
  have hr : FP.rnd (1 + 1 / 2 ^ 18) = 1 + 1 / 2 ^ 18 := by
    have := FP.Lawful.rnd_dyadic (2 ^ 18 + 1) 18 (by norm_num) (by norm_num)
    norm_num at this ⊢; exact this
  have hr2 : FP.rnd (1 / 2 ^ 18) = 1 / 2 ^ 18 := by
    have := FP.Lawful.rnd_dyadic 1 18 (by norm_num) (by norm_num)
    norm_num at this ⊢; exact this
  have hsum : ∀ a b : F64, a.Is 1 → b.Is (1 / 2 ^ 18) → (F64.sum [a, b]).Is (1 + 1 / 2 ^ 18) := by
    intro a b ha hb
    have h1 : (0 + a).Is 1 := by
      have := add_is Is.zero ha (not_huge_of_le 1 (by norm_num) (by norm_num))
      rwa [zero_add, rnd_one] at this
    have h2 := add_is h1 hb (not_huge_of_le 2 (by norm_num) (by norm_num))
    rw [hr] at h2; exact h2
  obtain ⟨t, htol, ht1, _⟩ := tol_is
  have hex : ∃ m, Mixture.new D [F64.fin 1, F64.fin (1 / 2 ^ 18)] [(), ()] = .ok (.ok m) := by
    rw [C32_new_iff D _ _ rfl (by simp)]
    constructor
    · intro p hp
      simp only [List.mem_cons, List.not_mem_nil, or_false] at hp
      rcases hp with rfl | rfl
      · exact ⟨_, Is.fin _, by norm_num, by norm_num⟩
      · exact ⟨_, Is.fin _, by norm_num, by norm_num⟩
    · have h3 := sub_is (hsum _ _ (Is.fin _) (Is.fin _)) Is.one (not_huge_of_le 1 (by norm_num) (by norm_num))
      rw [show (1 : ℝ) + 1 / 2 ^ 18 - 1 = 1 / 2 ^ 18 by ring, hr2] at h3
      refine (h3.abs.lt_iff htol).2 ?_
      rw [abs_of_nonneg (by positivity)]; refine lt_of_lt_of_le ?_ ht1; norm_num
  obtain ⟨m, hm⟩ := hex
  refine ⟨D, m, 0, hm, fun c y => ?_, ?_⟩
  · have := (unit_iff 1).2 ⟨1, Is.one, by norm_num, le_rfl⟩
    exact ⟨this.2, this.1⟩
  · obtain ⟨hw, hc⟩ := C32_new_keeps D _ _ m hm
    rintro ⟨h, _⟩
    unfold Mixture.cdf Mixture.zipped at h
    rw [hw, hc] at h
    have h1 : (F64.fin 1 * (1 : F64)).Is 1 := by
      have := mul_is (Is.fin 1) Is.one (not_huge_of_le 1 (by norm_num) (by norm_num))
      rwa [mul_one, rnd_one] at this
    have h2 : (F64.fin (1 / 2 ^ 18) * (1 : F64)).Is (1 / 2 ^ 18) := by
      have := mul_is (Is.fin (1 / 2 ^ 18)) Is.one (not_huge_of_le 1 (by norm_num) (by norm_num))
      rwa [mul_one, hr2] at this
    have h3 := ((hsum _ _ h1 h2).le_iff Is.one).1 h
    norm_num at h3

/-! ### C35 -/

theorem foldl_mean [FP] (D : Comp C S P X σ) (l : List (C × F64)) (a : F64) :
    l.foldl (fun acc cp => acc + cp.2 * D.mean cp.1) a = (l.map fun cp => cp.2 * D.mean cp.1).foldl (· + ·) a := by
  rw [List.foldl_map]

/-- C35: the mixture mean is the weighted sum of the component means -/
theorem C35_mean [FP] [FP.Exact] {N : ℕ} (D : Comp C S P X σ) (w : Fin N → ℝ) (c : Fin N → C) (s : S)
    (μ : Fin N → ℝ) (hμ : ∀ i, (D.mean (c i)).Is (μ i)) : ((Mix w c s).mean D).Is (∑ i, w i * μ i) := by
  unfold Mixture.mean
  rw [Mix_zipped, foldl_mean, List.map_ofFn]
  exact sum_ofFn_is _ _ fun i => (Is.fin (w i)).mul (hμ i)

theorem foldl_pair_is [FP] [FP.Exact] {A : Type} (l : List A) (f g : A → F64) (u v : A → ℝ)
    (hf : ∀ a ∈ l, (f a).Is (u a)) (hg : ∀ a ∈ l, (g a).Is (v a)) :
    ∀ (a b : F64) (x y : ℝ), a.Is x → b.Is y →
      (l.foldl (fun acc cp => (acc.1 + f cp, acc.2 + g cp)) (a, b)).1.Is (x + (l.map u).sum) ∧
      (l.foldl (fun acc cp => (acc.1 + f cp, acc.2 + g cp)) (a, b)).2.Is (y + (l.map v).sum) := by
  induction l with
  | nil => intro a b x y ha hb; simpa using ⟨ha, hb⟩
  | cons c l ih =>
    intro a b x y ha hb
    simp only [List.foldl_cons, List.map_cons, List.sum_cons]
    have := ih (fun a h => hf a (by simp [h])) (fun a h => hg a (by simp [h])) _ _ _ _ (ha.add (hf c (by simp)))
      (hb.add (hg c (by simp)))
    rwa [add_assoc, add_assoc] at this

/-- C35: the mixture variance is Σ w_i (v_i + (m_i - mean)²) (law of total variance), and non-negative -/
theorem C35_variance [FP] [FP.Exact] {N : ℕ} (D : Comp C S P X σ) (w : Fin N → ℝ) (c : Fin N → C) (s : S)
    (h1 : ∑ i, w i = 1) (μ v : Fin N → ℝ) (hμ : ∀ i, (D.mean (c i)).Is (μ i))
    (hv : ∀ i, (D.variance (c i)).Is (v i)) :
    ((Mix w c s).variance D).Is (∑ i, w i * (v i + (μ i - ∑ j, w j * μ j) ^ 2)) ∧
    ((∀ i, 0 ≤ w i) → (∀ i, 0 ≤ v i) → 0 ≤ ∑ i, w i * (v i + (μ i - ∑ j, w j * μ j) ^ 2)) := by
  constructor
  · unfold Mixture.variance
    have hz : (Mix w c s).zipped = (List.finRange N).map fun i => (c i, F64.fin (w i)) := by
      rw [Mix_zipped, List.ofFn_eq_map]
    rw [hz, List.foldl_map]
    have h := foldl_pair_is (List.finRange N) (fun i => F64.fin (w i) * D.mean (c i))
      (fun i => F64.fin (w i) * (D.mean (c i) * D.mean (c i) + D.variance (c i)))
      (fun i => w i * μ i) (fun i => w i * (μ i * μ i + v i))
      (fun i _ => (Is.fin _).mul (hμ i)) (fun i _ => (Is.fin _).mul (((hμ i).mul (hμ i)).add (hv i)))
      0 0 0 0 Is.zero Is.zero
    rw [← List.ofFn_eq_map, ← List.ofFn_eq_map, List.sum_ofFn, List.sum_ofFn, zero_add, zero_add] at h
    refine (h.2.sub (h.1.mul h.1)).congr ?_
    set M := ∑ j, w j * μ j with hM
    have e : ∑ i, w i * (v i + (μ i - M) ^ 2)
        = ∑ i, w i * (μ i * μ i + v i) - 2 * M * ∑ i, w i * μ i + M ^ 2 * ∑ i, w i := by
      clear_value M
      rw [Finset.mul_sum, Finset.mul_sum, ← Finset.sum_sub_distrib, ← Finset.sum_add_distrib]
      exact Finset.sum_congr rfl fun i _ => by ring
    rw [e, ← hM, h1]; ring
  · intro hw hv
    exact Finset.sum_nonneg fun i _ => mul_nonneg (hw i) (add_nonneg (hv i) (sq_nonneg _))

/-- a concrete two-component instance used below: components are reals `a` with mean `a`, variance 1 and step cdf -/
noncomputable def exComp : Comp ℝ Interval ℝ F64 ℕ :=
  ⟨fun _ => ⟨⊥, ⊤⟩, id, id, fun _ _ => ⟨F64.fin (1 / 2)⟩, fun _ _ => F64.fin (1 / 2), fun a => F64.fin a, fun _ => F64.fin 1,
    fun a s => (F64.fin a, s + 1)⟩

/-- C35 (non-vacuity): ½·N(0)+½·N(2): mean 1, variance 2 -/
example [FP] [FP.Exact] : ((Mix ![1/2, 1/2] ![(0 : ℝ), 2] (⟨⊥, ⊤⟩ : Interval)).variance exComp).Is 2 := by
  have := (C35_variance exComp ![1/2, 1/2] ![(0 : ℝ), 2] (⟨⊥, ⊤⟩ : Interval) (by norm_num [Fin.sum_univ_two])
    ![0, 2] ![1, 1] (fun i => by fin_cases i <;> exact Is.fin _) (fun i => by fin_cases i <;> exact Is.fin _)).1
  refine this.congr ?_
  norm_num [Fin.sum_univ_two]

end

/-! ### C36 -/
section
variable {C S P X σ : Type}

/-- C36: for N ≥ 1, `sample` uses one uniform draw `u` to pick an index `i < N` exactly as `sample_index` specifies
(C08), then returns what component `i` samples from the remaining generator state. It never panics. -/
theorem C36_sample [FP] (D : Comp C S P X σ) (pr : Profile) (g : Rng σ) (m : Mixture C S) (s : σ)
    (hlen : m.components.length = m.weights.ps.length) (hN : 1 ≤ m.weights.ps.length) :
    ∃ (i : ℕ) (c : C), m.components[i]? = some c ∧ m.weights.indexOf pr (g.gen s).1 = .ok i ∧
      m.sample D pr g s = (.ok (D.sample c (g.gen s).2).1, (D.sample c (g.gen s).2).2) := by
  obtain ⟨⟨i, hi, h1⟩, h2⟩ := C07_sample_index_in_range pr g m.weights s hN
  refine ⟨i, m.components[i]'(by omega), List.getElem?_eq_getElem _, h1, ?_⟩
  unfold Mixture.sample
  have : m.weights.sampleIndex pr g s = (.ok i, (g.gen s).2) := Prod.ext h1 h2
  rw [this]
  simp only [List.getElem?_eq_getElem (show i < m.components.length by omega)]

/-- C36: in exact arithmetic the draws selecting component `i` have Lebesgue measure `w i` -/
theorem C36_sample_measure [FP] [FP.Exact] (D : Comp C S P X ℝ) (pr : Profile) (ws : List ℝ) (cs : List C) (S0 : S)
    (hlen : cs.length = ws.length) (h0 : ∀ w ∈ ws, 0 ≤ w) (h1 : ws.sum = 1) (i : ℕ) (hi : i < ws.length) :
    MeasureTheory.volume {u : ℝ | 0 ≤ u ∧ u < 1 ∧
      (Mixture.mk ⟨ws.map F64.fin⟩ cs S0).weights.indexOf pr (F64.fin u) = .ok i} = ENNReal.ofReal ws[i] ∧
    ∀ u : ℝ, (Mixture.mk ⟨ws.map F64.fin⟩ cs S0).weights.indexOf pr (F64.fin u) = .ok i →
      (Mixture.mk (S := S) ⟨ws.map F64.fin⟩ cs S0).sample D pr ⟨fun s => (F64.fin s, s)⟩ u =
        (.ok (D.sample (cs[i]'(by omega)) u).1, (D.sample (cs[i]'(by omega)) u).2) := by
  refine ⟨C08_sample_index_measure pr ws h0 h1 i hi, fun u hu => ?_⟩
  obtain ⟨j, c, hj, hidx, hs⟩ := C36_sample D pr ⟨fun s => (F64.fin s, s)⟩ (Mixture.mk (S := S) ⟨ws.map F64.fin⟩ cs S0) u
    (by simpa using hlen) (by simp; omega)
  rw [hs]
  dsimp only at hidx hj ⊢
  rw [hu] at hidx
  cases hidx
  rw [List.getElem?_eq_getElem (by omega)] at hj
  cases hj; rfl

/-! ### C37 -/

/-- C37: converting `params()` back gives the same mixture, for every mixture built by `new` or `new_unchecked`
(lengths equal, support computed from the components), provided the components' own round trip holds -/
theorem C37_params_roundtrip [FP] [Support S] (D : Comp C S P X σ) (hD : ∀ c, D.ofParams (D.params c) = c)
    (m : Mixture C S) (hlen : m.components.length = m.weights.ps.length)
    (hs : Mixture.computeSupport D m.components = .ok m.support) :
    Mixture.ofParams D (m.params D) = .ok m := by
  unfold Mixture.ofParams Mixture.params
  have e : (m.components.map D.params).map D.ofParams = m.components := by
    rw [List.map_map]; conv_rhs => rw [← List.map_id m.components]
    exact List.map_congr_left fun c _ => hD c
  simp only [e]
  rw [if_neg (by omega), if_neg (by omega), hs]

/-- C37: in particular for every mixture returned by `new` -/
theorem C37_new_roundtrip [FP] [Support S] (D : Comp C S P X σ) (hD : ∀ c, D.ofParams (D.params c) = c)
    (ws : List F64) (cs : List C) (m : Mixture C S) (h : Mixture.new D ws cs = .ok (.ok m)) :
    Mixture.ofParams D (m.params D) = .ok m := by
  obtain ⟨h1, h2, h3, h4⟩ := Mixture.new_ok D ws cs m h
  refine C37_params_roundtrip D hD m ?_ (by rw [h4]; exact h2)
  rw [h4, ((C05_simplex_new_iff ws _).1 h3).1]; exact h1

/-- C37: too many component parameters panic (index out of bounds) -/
theorem C37_too_many_panics [Support S] (D : Comp C S P X σ) (p : MixtureParams P)
    (h : p.ps.ps.length < p.componentParams.length) : Mixture.ofParams D p = .panic .index := by
  unfold Mixture.ofParams; simp only [List.length_map]; rw [if_pos h]

/-- C37: too few component parameters read uninitialised memory (undefined behaviour reachable from safe code: `Params`
has public fields) -/
theorem C37_too_few_ub [Support S] (D : Comp C S P X σ) (p : MixtureParams P)
    (h : p.componentParams.length < p.ps.ps.length) : Mixture.ofParams D p = .undefinedBehaviour := by
  unfold Mixture.ofParams; simp only [List.length_map]; rw [if_neg (by omega), if_pos h]

end

section
attribute [local instance] exactFP exactFP_exact
/-- C32/C37 (non-vacuity): a concrete accepted mixture -/
example : ∃ m, Mixture.new exComp [F64.fin (1 / 2), F64.fin (1 / 2)] [0, 2] = .ok (.ok m) := by
  rw [C32_new_iff exComp [F64.fin (1 / 2), F64.fin (1 / 2)] [0, 2] rfl (by simp)]
  constructor
  · intro p hp
    simp only [List.mem_cons, List.not_mem_nil, or_false, or_self] at hp
    subst hp; exact ⟨_, Is.fin _, by norm_num, by norm_num⟩
  · have hs : (F64.sum [fin (1/2), fin (1/2)]).Is ([1/2, 1/2] : List ℝ).sum :=
      Is.sum (.cons (Is.fin _) (.cons (Is.fin _) .nil))
    rw [((hs.sub Is.one).abs).lt_iff (Is.lit _)]
    norm_num
end

end Rstat
