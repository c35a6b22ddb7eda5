import Verif.Spec.Links
import Verif.Props.Mixture
import Verif.Lemmas.DistBase
import Verif.Props.Dist.Pareto

/-! Property C244: a mixture depends only on the weighted components: order, repetition and zero weights do not matter. -/
set_option linter.unusedSectionVars false
namespace Rstat
open F64 Spec

namespace Spec
/-- two mixtures return the same numbers at the point `x` -/
def SameMixture [FP] {C S P X σ : Type} (D : Comp C S P X σ) (m m' : Mixture C S) (x : X) : Prop :=
  SameVal (m.cdf D x).val (m'.cdf D x).val ∧ SameVal (m.pdf D x) (m'.pdf D x) ∧ SameVal (m.mean D) (m'.mean D) ∧
    SameVal (m.variance D) (m'.variance D)
/-- the methods of the component `c` return real numbers at the point `x` -/
def RealAt {C S P X σ : Type} (D : Comp C S P X σ) (x : X) (c : C) : Prop :=
  (∃ r, (D.cdf c x).val.Is r) ∧ (∃ r, (D.pdf c x).Is r) ∧ (∃ r, (D.mean c).Is r) ∧ ∃ r, (D.variance c).Is r
end Spec

section
variable [FP] [FP.Exact] {C S P X σ : Type} [Support S] {D : Comp C S P X σ}

theorem is_toReal {a : F64} (h : ∃ r, a.Is r) : a.Is a.toReal := by obtain ⟨r, h⟩ := h; rw [h.toReal_eq]; exact h

/-- values of the methods of an accepted mixture -/
theorem mixture_eval {ws : List F64} {cs : List C} {m : Mixture C S} (h : Mixture.new D ws cs = .ok (.ok m)) {x : X} (hx : ∀ c ∈ cs, RealAt D x c) :
    (m.cdf D x).val.Is ((cs.zip ws).map fun cp => cp.2.toReal * (D.cdf cp.1 x).val.toReal).sum ∧
    (m.pdf D x).Is ((cs.zip ws).map fun cp => cp.2.toReal * (D.pdf cp.1 x).toReal).sum ∧
    (m.mean D).Is ((cs.zip ws).map fun cp => cp.2.toReal * (D.mean cp.1).toReal).sum ∧
    (m.variance D).Is (((cs.zip ws).map fun cp => cp.2.toReal * ((D.mean cp.1).toReal * (D.mean cp.1).toReal + (D.variance cp.1).toReal)).sum -
      ((cs.zip ws).map fun cp => cp.2.toReal * (D.mean cp.1).toReal).sum * ((cs.zip ws).map fun cp => cp.2.toReal * (D.mean cp.1).toReal).sum) := by
  obtain ⟨-, -, hw, hc⟩ := Mixture.new_ok D ws cs m h
  obtain ⟨h1, h2, -⟩ := (C05_simplex_new_iff ws m.weights).1 hw
  have hz : m.zipped = cs.zip ws := by unfold Mixture.zipped; rw [hc, h1]
  have hwt : ∀ cp ∈ cs.zip ws, cp.2.Is cp.2.toReal := fun cp hcp => by
    obtain ⟨r, hr, -⟩ := h2 _ (List.of_mem_zip hcp).2
    exact is_toReal ⟨r, hr⟩
  have hmem : ∀ cp ∈ cs.zip ws, RealAt D x cp.1 := fun cp hcp => hx _ (List.of_mem_zip hcp).1
  have hm : ∀ cp ∈ cs.zip ws, (D.mean cp.1).Is (D.mean cp.1).toReal := fun cp hcp => is_toReal (hmem cp hcp).2.2.1
  have hv : ∀ cp ∈ cs.zip ws, (D.variance cp.1).Is (D.variance cp.1).toReal := fun cp hcp => is_toReal (hmem cp hcp).2.2.2
  refine ⟨?_, ?_, ?_, ?_⟩
  · unfold Mixture.cdf; rw [hz]
    exact Is.sum_map _ _ _ fun cp hcp => (hwt cp hcp).mul (is_toReal (hmem cp hcp).1)
  · unfold Mixture.pdf; rw [hz]
    exact Is.sum_map _ _ _ fun cp hcp => (hwt cp hcp).mul (is_toReal (hmem cp hcp).2.1)
  · unfold Mixture.mean; rw [hz, foldl_mean]
    exact Is.sum_map _ _ _ fun cp hcp => (hwt cp hcp).mul (hm cp hcp)
  · unfold Mixture.variance; rw [hz]
    obtain ⟨e1, e2⟩ := foldl_pair_is (cs.zip ws) (fun cp => cp.2 * D.mean cp.1) (fun cp => cp.2 * (D.mean cp.1 * D.mean cp.1 + D.variance cp.1)) _ _
      (fun cp hcp => (hwt cp hcp).mul (hm cp hcp)) (fun cp hcp => (hwt cp hcp).mul (((hm cp hcp).mul (hm cp hcp)).add (hv cp hcp))) 0 0 0 0 Is.zero Is.zero
    rw [zero_add] at e1 e2
    exact e2.sub (e1.mul e1)

/-- weights that are non-negative reals of sum 1 are accepted -/
theorem mixture_ok {rs : List ℝ} {cs : List C} (hl : cs.length = rs.length) (hne : cs ≠ []) (h0 : ∀ r ∈ rs, 0 ≤ r) (h1 : rs.sum = 1) :
    ∃ m, Mixture.new D (rs.map F64.fin) cs = .ok (.ok m) := by
  rw [C32_new_iff D _ _ (by simpa using hl) (by rw [List.length_map, ← hl]; exact List.length_pos_iff.2 hne)]
  constructor
  · intro p hp
    obtain ⟨r, hr, rfl⟩ := List.mem_map.1 hp
    exact ⟨r, Is.fin _, h0 r hr, h1 ▸ List.single_le_sum h0 r hr⟩
  · have hs : (F64.sum (rs.map F64.fin)).Is rs.sum := by
      have := Is.sum_map rs F64.fin id fun r _ => Is.fin r
      simpa using this
    rw [((hs.sub Is.one).abs).lt_iff (Is.lit _), h1]
    norm_num

/-- C244: reordering the weighted components changes nothing: cdf, pdf, mean and variance are the same. -/
theorem C244_permute_partial {ws ws' : List F64} {cs cs' : List C} {m m' : Mixture C S} (h : Mixture.new D ws cs = .ok (.ok m))
    (h' : Mixture.new D ws' cs' = .ok (.ok m')) (hp : (cs.zip ws).Perm (cs'.zip ws')) {x : X} (hx : ∀ c ∈ cs, RealAt D x c) :
    SameMixture D m m' x := by
  obtain ⟨hl', -⟩ := Mixture.new_ok D ws' cs' m' h'
  have hx' : ∀ c ∈ cs', RealAt D x c := fun c hc => by
    obtain ⟨i, hi, rfl⟩ := List.mem_iff_getElem.1 hc
    have : (cs'[i], ws'[i]'(hl' ▸ hi)) ∈ cs'.zip ws' := List.mem_iff_getElem.2 ⟨i, by simpa [hl'] using hl' ▸ hi, by simp⟩
    exact hx _ (List.of_mem_zip (hp.mem_iff.2 this)).1
  obtain ⟨a1, a2, a3, a4⟩ := mixture_eval h hx
  obtain ⟨b1, b2, b3, b4⟩ := mixture_eval h' hx'
  rw [← (hp.map _).sum_eq] at b1 b2 b3 b4
  rw [← (hp.map _).sum_eq] at b4
  exact ⟨⟨_, a1, b1⟩, ⟨_, a2, b2⟩, ⟨_, a3, b3⟩, ⟨_, a4, b4⟩⟩

/-- C244: a mixture all of whose components are the same distribution `c`, with weights summing to 1, returns the numbers `c` returns. -/
theorem C244_identical_partial {ws : List F64} {cs : List C} {m : Mixture C S} (h : Mixture.new D ws cs = .ok (.ok m)) {c : C} (hc : ∀ c' ∈ cs, c' = c)
    (h1 : (ws.map toReal).sum = 1) {x : X} (hx : RealAt D x c) :
    SameVal (m.cdf D x).val (D.cdf c x).val ∧ SameVal (m.pdf D x) (D.pdf c x) ∧ SameVal (m.mean D) (D.mean c) ∧ SameVal (m.variance D) (D.variance c) := by
  obtain ⟨hl, -⟩ := Mixture.new_ok D ws cs m h
  obtain ⟨a1, a2, a3, a4⟩ := mixture_eval h (x := x) fun c' hc' => by rw [hc c' hc']; exact hx
  have key : ∀ f : C → ℝ, ((cs.zip ws).map fun cp => cp.2.toReal * f cp.1).sum = f c := fun f => by
    have e : ((cs.zip ws).map fun cp => cp.2.toReal * f cp.1) = (cs.zip ws).map fun cp => cp.2.toReal * f c :=
      List.map_congr_left fun cp hcp => by rw [hc _ (List.of_mem_zip hcp).1]
    have e2 : ((cs.zip ws).map fun cp => cp.2.toReal) = ws.map toReal := by
      rw [show (fun cp : C × F64 => cp.2.toReal) = toReal ∘ Prod.snd from rfl, ← List.map_map, List.map_snd_zip (by omega)]
    rw [e, List.sum_map_mul_right, e2, h1, one_mul]
  rw [key (fun c => (D.cdf c x).val.toReal)] at a1
  rw [key (fun c => (D.pdf c x).toReal)] at a2
  rw [key (fun c => (D.mean c).toReal)] at a3 a4
  rw [key (fun c => (D.mean c).toReal * (D.mean c).toReal + (D.variance c).toReal)] at a4
  exact ⟨⟨_, a1, is_toReal hx.1⟩, ⟨_, a2, is_toReal hx.2.1⟩, ⟨_, a3, is_toReal hx.2.2.1⟩, ⟨_, a4.congr (by ring), is_toReal hx.2.2.2⟩⟩

/-- C244: a component of weight 0 changes nothing, wherever it stands, if its methods return real numbers. -/
theorem C244_zero_weight_partial {ws vs : List F64} {cs es : List C} {m m' : Mixture C S} {z : F64} {c : C} (hl : cs.length = ws.length)
    (h : Mixture.new D (ws ++ vs) (cs ++ es) = .ok (.ok m)) (h' : Mixture.new D (ws ++ z :: vs) (cs ++ c :: es) = .ok (.ok m')) (hz : z.Is 0)
    {x : X} (hx : ∀ c' ∈ c :: cs ++ es, RealAt D x c') : SameMixture D m m' x := by
  obtain ⟨a1, a2, a3, a4⟩ := mixture_eval h (x := x) fun c' hc' => hx c' (by simp at hc' ⊢; tauto)
  obtain ⟨b1, b2, b3, b4⟩ := mixture_eval h' (x := x) fun c' hc' => hx c' (by simp at hc' ⊢; tauto)
  rw [List.zip_append hl] at a1 a2 a3 a4 b1 b2 b3 b4
  rw [List.zip_cons_cons] at b1 b2 b3 b4
  have z0 := hz.toReal_eq
  simp only [List.map_append, List.map_cons, List.sum_append, List.sum_cons, z0, zero_mul, zero_add] at a1 a2 a3 a4 b1 b2 b3 b4
  exact ⟨⟨_, a1, b1⟩, ⟨_, a2, b2⟩, ⟨_, a3, b3⟩, ⟨_, a4, b4⟩⟩
end

/-- C244, violated: a component of weight 0 whose mean is infinite (Lévy, Pareto with α ≤ 1, Fréchet with α ≤ 1) makes the mean and the variance of
the mixture NaN, wherever it stands and whatever the other components, in every floating-point arithmetic. -/
theorem C244_zero_weight_violated [FP] {C S P X σ : Type} [Support S] {D : Comp C S P X σ} {ws vs : List F64} {cs es : List C} {m : Mixture C S}
    {c : C} (hl : cs.length = ws.length) (h : Mixture.new D (ws ++ 0 :: vs) (cs ++ c :: es) = .ok (.ok m)) (hc : D.mean c = pinf) :
    m.mean D = nan ∧ m.variance D = nan := by
  obtain ⟨-, -, hw, hc'⟩ := Mixture.new_ok D _ _ m h
  obtain ⟨h1, -⟩ := (C05_simplex_new_iff _ m.weights).1 hw
  have hz : m.zipped = cs.zip ws ++ (c, 0) :: es.zip vs := by
    unfold Mixture.zipped; rw [hc', h1, List.zip_append hl, List.zip_cons_cons]
  have e0 : (0 : F64) * pinf = nan := by simp [F64.mul, HMul.hMul, Mul.mul, F64.isInf, F64.isFinite, F64.toReal]
  have an : ∀ a : F64, a + nan = nan := Rstat.add_nan
  have na : ∀ a : F64, nan + a = nan := Rstat.nan_add
  have sn : ∀ a : F64, a - nan = nan := fun a => by cases a <;> rfl
  have n1 : ∀ l : List (C × F64), l.foldl (fun acc cp => acc + cp.2 * D.mean cp.1) nan = nan := fun l => by
    induction l with
    | nil => rfl
    | cons a l ih => rw [List.foldl_cons, na, ih]
  constructor
  · unfold Mixture.mean
    rw [hz, List.foldl_append, List.foldl_cons, hc, e0, an, n1]
  · have key : ∀ (l : List (C × F64)) (a : F64 × F64), (l.foldl (fun acc cp =>
        (acc.1 + cp.2 * D.mean cp.1, acc.2 + cp.2 * (D.mean cp.1 * D.mean cp.1 + D.variance cp.1))) a).1 =
        l.foldl (fun acc cp => acc + cp.2 * D.mean cp.1) a.1 := fun l => by
      induction l with
      | nil => intro a; rfl
      | cons b l ih => intro a; rw [List.foldl_cons, List.foldl_cons, ih]
    unfold Mixture.variance
    dsimp only
    have hf : (m.zipped.foldl (fun acc cp =>
        (acc.1 + cp.2 * D.mean cp.1, acc.2 + cp.2 * (D.mean cp.1 * D.mean cp.1 + D.variance cp.1))) (0, 0)).1 = nan := by
      rw [key, hz, List.foldl_append, List.foldl_cons, hc, e0, an, n1]
    rw [hf, Rstat.mul_nan, sn]

section
attribute [local instance] exactFP exactFP_exact
/-- C244 (non-vacuity): ¼·c₀ + ¾·c₂ and ¾·c₂ + ¼·c₀ -/
example : ∃ m m', Mixture.new exComp [F64.fin (1/4), F64.fin (3/4)] [0, 2] = .ok (.ok m) ∧ Mixture.new exComp [F64.fin (3/4), F64.fin (1/4)] [2, 0] = .ok (.ok m') ∧
    SameMixture exComp m m' (F64.fin 7) := by
  obtain ⟨m, hm⟩ := mixture_ok (D := exComp) (rs := [1/4, 3/4]) (cs := [0, 2]) rfl (by simp) (by norm_num) (by norm_num)
  obtain ⟨m', hm'⟩ := mixture_ok (D := exComp) (rs := [3/4, 1/4]) (cs := [2, 0]) rfl (by simp) (by norm_num) (by norm_num)
  exact ⟨m, m', hm, hm', C244_permute_partial hm hm' (List.Perm.swap _ _ _) fun c _ => ⟨⟨_, Is.fin _⟩, ⟨_, Is.fin _⟩, ⟨_, Is.fin _⟩, ⟨_, Is.fin _⟩⟩⟩
/-- C244 (non-vacuity): ¼·c₃ + ¾·c₃ has the mean 3 of c₃ -/
example : ∃ m, Mixture.new exComp [F64.fin (1/4), F64.fin (3/4)] [3, 3] = .ok (.ok m) ∧ (m.mean exComp).Is 3 := by
  obtain ⟨m, hm⟩ := mixture_ok (D := exComp) (rs := [1/4, 3/4]) (cs := [3, 3]) rfl (by simp) (by norm_num) (by norm_num)
  obtain ⟨-, -, ⟨r, h1, h2⟩, -⟩ := C244_identical_partial hm (c := 3) (by simp) (by norm_num [F64.toReal]) (x := F64.fin 7)
    ⟨⟨_, Is.fin _⟩, ⟨_, Is.fin _⟩, ⟨_, Is.fin _⟩, ⟨_, Is.fin _⟩⟩
  refine ⟨m, hm, ?_⟩
  have : r = 3 := h2.toReal_eq.symm.trans rfl
  rw [← this]; exact h1
/-- C244 (non-vacuity): 1·c₃ and 1·c₃ + 0·c₅ -/
example : ∃ m m', Mixture.new exComp [F64.fin 1] [3] = .ok (.ok m) ∧ Mixture.new exComp [F64.fin 1, F64.fin 0] [3, 5] = .ok (.ok m') ∧
    SameMixture exComp m m' (F64.fin 7) := by
  obtain ⟨m, hm⟩ := mixture_ok (D := exComp) (rs := [1]) (cs := [3]) rfl (by simp) (by norm_num) (by norm_num)
  obtain ⟨m', hm'⟩ := mixture_ok (D := exComp) (rs := [1, 0]) (cs := [3, 5]) rfl (by simp) (by norm_num) (by norm_num)
  exact ⟨m, m', hm, hm', C244_zero_weight_partial (D := exComp) (c := 5) (m := m) (m' := m') (z := F64.fin 0) (x := F64.fin 7) (ws := [F64.fin 1]) (vs := []) (cs := [3]) (es := []) rfl hm hm' (Is.fin 0)
    fun c _ => ⟨⟨_, Is.fin _⟩, ⟨_, Is.fin _⟩, ⟨_, Is.fin _⟩, ⟨_, Is.fin _⟩⟩⟩

/-- the Pareto distribution as a component -/
noncomputable def paretoComp : Comp Pareto Interval Pareto F64 ℕ :=
  ⟨fun d => ⟨(d.xm.toReal : EReal), ⊤⟩, id, id, fun d x => d.cdf x, fun d x => d.pdf x, Pareto.mean, Pareto.variance, fun d s => (d.xm, s + 1)⟩
/-- C244 (non-vacuity): all the weight on a Pareto(1, 3), of mean 3/2, none on a Pareto(1, 1): the mean is NaN -/
example : ∃ d d' m, Pareto.new 1 3 = .ok d ∧ Pareto.new 1 1 = .ok d' ∧ Mixture.new paretoComp [F64.fin 1, F64.fin 0] [d, d'] = .ok (.ok m) ∧
    m.mean paretoComp = nan := by
  have h1 : Pareto.new 1 3 = .ok ⟨1, 3⟩ := Pareto.new_ok.2 ⟨(Is.zero.lt_iff (Is.num _)).2 (by norm_num), rfl⟩
  have h2 : Pareto.new 1 1 = .ok ⟨1, 1⟩ := Pareto.new_ok.2 ⟨(Is.zero.lt_iff Is.one).2 (by norm_num), rfl⟩
  obtain ⟨m, hm⟩ := mixture_ok (D := paretoComp) (rs := [1, 0]) (cs := [⟨1, 3⟩, ⟨1, 1⟩]) rfl (by simp) (by norm_num) (by norm_num)
  refine ⟨_, _, m, h1, h2, hm, (C244_zero_weight_violated (D := paretoComp) (ws := [F64.fin 1]) (vs := []) (cs := [⟨1, 3⟩]) (es := []) rfl hm ?_).1⟩
  exact if_pos ((Is.one.le_iff Is.one).2 le_rfl)
end
end Rstat
