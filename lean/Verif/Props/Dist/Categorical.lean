import Verif.Model.Dist.Categorical
import Verif.Props.Probability
import Verif.Lemmas.Constraints
import Verif.Lemmas.DistBase
import Verif.Spec.Discrete

/-! Properties C91, C92, C127: the categorical law. -/
set_option linter.unusedSectionVars false
namespace Rstat
open F64 Spec

theorem Categorical.new_ok [FP] {ps : List F64} {d : Categorical} :
    Categorical.new ps = .ok d ↔ SimplexVector.new ps = .ok d.ps := by
  simp only [Categorical.new, exc_bind_ok, SimplexVector.newE, mapError_ok_iff]
  constructor
  · rintro ⟨v, h0, h⟩; cases h; exact h0
  · intro h; exact ⟨_, h, rfl⟩

theorem Categorical.ps_eq [FP] {ps : List F64} {d : Categorical} (h : Categorical.new ps = .ok d) :
    d.ps.ps = ps ∧ (∀ p ∈ ps, Spec.InUnit p) :=
  let h' := (C05_simplex_new_iff ps d.ps).1 (Categorical.new_ok.1 h)
  ⟨h'.1, h'.2.1⟩

/-- C91: for accepted weights, `pmf(i)` is exactly the i-th weight (a valid probability) for i < N and panics for i ≥ N;
this holds for every floating-point rounding. -/
theorem C91_categorical_pmf [FP] {ps : List F64} {d : Categorical} (h : Categorical.new ps = .ok d) (i : ℕ) :
    (∀ p, ps[i]? = some p → d.pmf i = .ok ⟨p⟩ ∧ (Probability.mk p).isValid) ∧
    (ps.length ≤ i → ∃ e, d.pmf i = .error e) := by
  obtain ⟨h1, h2⟩ := Categorical.ps_eq h
  constructor
  · intro p hp
    refine ⟨by unfold Categorical.pmf; rw [h1, hp]; rfl, ?_⟩
    exact (C01_is_valid_iff _).2 (h2 p (List.mem_of_getElem? hp))
  · intro hi
    refine ⟨.explicit, ?_⟩
    unfold Categorical.pmf; rw [h1, List.getElem?_eq_none hi]

/-- C91: sampling. If the weights are the reals `ws` (summing to 1), the set of uniform draws for which category `i` is
returned has measure `ws[i]`. -/
theorem C91_categorical_sample [FP] [FP.Exact] (pr : Profile) {ws : List ℝ} {d : Categorical}
    (h : Categorical.new (ws.map F64.fin) = .ok d) (h1 : ws.sum = 1) (i : ℕ) (hi : i < ws.length) :
    MeasureTheory.volume {u : ℝ | 0 ≤ u ∧ u < 1 ∧
      ∀ (g : Rng ℕ) (s : ℕ), (g.gen s).1 = F64.fin u → (d.sample pr g s).1 = .ok i} = ENNReal.ofReal ws[i] := by
  obtain ⟨e1, e2⟩ := Categorical.ps_eq h
  have h0 : ∀ w ∈ ws, 0 ≤ w := fun w hw => by
    obtain ⟨r, hr, h0, _⟩ := e2 (F64.fin w) (List.mem_map_of_mem hw)
    rwa [hr.eq (Is.fin w)] at h0
  rw [← C08_sample_index_measure pr ws h0 h1 i hi]
  congr 1
  ext u
  simp only [Set.mem_ofPred_eq]
  refine and_congr_right fun _ => and_congr_right fun _ => ?_
  have e3 : d.ps = SimplexVector.mk (ws.map F64.fin) := by ext1; exact e1
  constructor
  · intro hg
    have := hg ⟨fun s => (F64.fin u, s)⟩ 0 rfl
    unfold Categorical.sample SimplexVector.sampleIndex at this
    rw [e3] at this; exact this
  · intro hx g s hg
    unfold Categorical.sample SimplexVector.sampleIndex
    show d.ps.indexOf pr (g.gen s).1 = _
    rw [hg, e3]; exact hx

/-! ### modes -/
theorem cat_modes_fold (f : ℕ → ℝ) : ∀ (l : List F64) (n : ℕ) (ms : List ℕ) (pm : F64) (M : ℝ),
    (∀ (i : ℕ) (p : F64), l[i]? = some p → p.Is (f (n + i))) → pm.Is M → (∀ i < n, f i ≤ M) → (∃ i < n, f i = M) →
    ms.Pairwise (· < ·) → (∀ i, i ∈ ms ↔ i < n ∧ f i = M) →
    ∃ r M', ((l.zipIdx n).map fun x => (x.2, x.1)).foldlM Categorical.modesStep (ms, pm) = .ok r ∧
      (∀ i < n + l.length, f i ≤ M') ∧ (∃ i < n + l.length, f i = M') ∧
      r.1.Pairwise (· < ·) ∧ (∀ i, i ∈ r.1 ↔ i < n + l.length ∧ f i = M')
  | [], n, ms, pm, M, _, _, h1, h2, h3, h4 => ⟨(ms, pm), M, rfl, h1, h2, h3, h4⟩
  | p :: l, n, ms, pm, M, hl, hM, h1, h2, h3, h4 => by
    have hp : p.Is (f n) := by simpa using hl 0 p rfl
    have hl' : ∀ (i : ℕ) (q : F64), l[i]? = some q → q.Is (f (n + 1 + i)) := fun i q hq => by
      have := hl (i + 1) q (by simpa using hq)
      rwa [show n + (i + 1) = n + 1 + i by ring] at this
    have hlen : n + (p :: l).length = n + 1 + l.length := by rw [List.length_cons]; ring
    rw [hlen, List.zipIdx_cons, List.map_cons, List.foldlM_cons]
    obtain ⟨i0, hi0, hf0⟩ := h2
    rcases lt_trichotomy (f n) M with hc | hc | hc
    · have e : Categorical.modesStep (ms, pm) (n, p) = .ok (ms, pm) := by
        unfold Categorical.modesStep F64.partialCmp
        simp only [hp.lt_iff hM, hc, if_true]
      rw [e, exc_ok_bind]
      refine cat_modes_fold f l (n + 1) ms pm M hl' hM (fun i hi => ?_) ⟨i0, by omega, hf0⟩ h3 (fun i => ?_)
      · rcases Nat.lt_succ_iff_lt_or_eq.1 hi with h | rfl
        · exact h1 i h
        · exact hc.le
      · rw [h4]
        constructor
        · rintro ⟨a, b⟩; exact ⟨by omega, b⟩
        · rintro ⟨a, b⟩
          rcases Nat.lt_succ_iff_lt_or_eq.1 a with h | rfl
          · exact ⟨h, b⟩
          · exact absurd b hc.ne
    · have e : Categorical.modesStep (ms, pm) (n, p) = .ok (ms ++ [n], pm) := by
        unfold Categorical.modesStep F64.partialCmp
        simp only [hp.lt_iff hM, hp.feq_iff hM, hc, lt_irrefl, if_true, if_false]
      rw [e, exc_ok_bind]
      refine cat_modes_fold f l (n + 1) (ms ++ [n]) pm M hl' hM (fun i hi => ?_) ⟨i0, by omega, hf0⟩ ?_ (fun i => ?_)
      · rcases Nat.lt_succ_iff_lt_or_eq.1 hi with h | rfl
        · exact h1 i h
        · exact hc.le
      · rw [List.pairwise_append]
        refine ⟨h3, List.pairwise_singleton _ _, fun a ha b hb => ?_⟩
        rw [List.mem_singleton] at hb; subst hb
        exact ((h4 a).1 ha).1
      · rw [List.mem_append, List.mem_singleton, h4]
        constructor
        · rintro (⟨a, b⟩ | rfl)
          · exact ⟨by omega, b⟩
          · exact ⟨by omega, hc⟩
        · rintro ⟨a, b⟩
          rcases Nat.lt_succ_iff_lt_or_eq.1 a with h | rfl
          · exact Or.inl ⟨h, b⟩
          · exact Or.inr rfl
    · have hne : ms ≠ [] := by
        intro he
        have := (h4 i0).2 ⟨hi0, hf0⟩
        rw [he] at this; simp at this
      have e : Categorical.modesStep (ms, pm) (n, p) = .ok ([n], p) := by
        unfold Categorical.modesStep F64.partialCmp
        simp only [hp.lt_iff hM, hp.feq_iff hM, hM.lt_iff hp, hc, hc.ne', not_lt.2 hc.le, if_true, if_false]
        cases ms with
        | nil => exact absurd rfl hne
        | cons a t => rfl
      rw [e, exc_ok_bind]
      refine cat_modes_fold f l (n + 1) [n] p (f n) hl' hp (fun i hi => ?_) ⟨n, by omega, rfl⟩ (List.pairwise_singleton _ _) (fun i => ?_)
      · rcases Nat.lt_succ_iff_lt_or_eq.1 hi with h | rfl
        · exact (h1 i h).trans hc.le
        · exact le_rfl
      · rw [List.mem_singleton]
        constructor
        · rintro rfl; exact ⟨by omega, rfl⟩
        · rintro ⟨a, b⟩
          rcases Nat.lt_succ_iff_lt_or_eq.1 a with h | rfl
          · exact absurd b ((h1 i h).trans_lt hc).ne
          · rfl

theorem simplex_ne_nil [FP] [FP.Exact] {ps : List F64} {d : Categorical} (h : Categorical.new ps = .ok d) : ps ≠ [] := by
  rintro rfl
  have := ((C05_simplex_new_iff [] d.ps).1 (Categorical.new_ok.1 h)).2.2
  have hz : (F64.sum []).Is 0 := by simpa using Is.sum (l := []) (rs := []) .nil
  rw [(hz.sub Is.one).abs.lt_iff (Is.lit _)] at this
  norm_num at this

/-- C91: for accepted weights `modes()` returns, in increasing order and without repetition, exactly the indices of
maximal weight. -/
theorem C91_categorical_modes [FP] [FP.Exact] {ps : List F64} {d : Categorical} (h : Categorical.new ps = .ok d) :
    ∃ ms, d.modes = .ok ms ∧ ms.Pairwise (· < ·) ∧ ms ≠ [] ∧
      ∀ i, i ∈ ms ↔ ∃ p, ps[i]? = some p ∧ ∀ q ∈ ps, q ≤ p := by
  obtain ⟨h1, h2⟩ := Categorical.ps_eq h
  have hne := simplex_ne_nil h
  have hu : ∀ p ∈ ps, p.Is p.toReal := fun p hp => by
    obtain ⟨r, hr, _⟩ := h2 p hp
    rwa [hr.toReal_eq]
  set f : ℕ → ℝ := fun i => ((ps[i]?).getD 0).toReal with hf
  have hfi : ∀ (i : ℕ) (p : F64), ps[i]? = some p → p.Is (f i) := fun i p hp => by
    have : f i = p.toReal := by rw [hf]; simp only [hp, Option.getD_some]
    rw [this]; exact hu p (List.mem_of_getElem? hp)
  obtain ⟨p0, t, rfl⟩ := List.exists_cons_of_ne_nil hne
  obtain ⟨r, M, e1, e2, ⟨i0, e3, e3'⟩, e4, e5⟩ := cat_modes_fold f t 1 [0] p0 (f 0)
    (fun i p hp => hfi _ p (by rw [add_comm]; simpa using hp)) (hfi 0 p0 rfl)
    (fun i hi => by rw [show i = 0 by omega]) ⟨0, one_pos, rfl⟩ (List.pairwise_singleton _ _)
    (fun i => by
      rw [List.mem_singleton]
      constructor
      · rintro rfl; exact ⟨one_pos, rfl⟩
      · rintro ⟨a, _⟩; omega)
  refine ⟨r.1, ?_, e4, ?_, fun i => ?_⟩
  · unfold Categorical.modes
    rw [h1]
    dsimp only
    rw [List.zipIdx_cons, List.map_cons, List.drop_succ_cons, List.drop_zero, zero_add, e1]
    rfl
  · intro he
    have := (e5 i0).2 ⟨e3, e3'⟩
    rw [he] at this; simp at this
  · rw [e5]
    constructor
    · rintro ⟨hi, hM⟩
      have hi' : i < (p0 :: t).length := by rw [List.length_cons]; omega
      refine ⟨(p0 :: t)[i], List.getElem?_eq_getElem hi', fun q hq => ?_⟩
      obtain ⟨j, hj, rfl⟩ := List.getElem_of_mem hq
      rw [(hfi j _ (List.getElem?_eq_getElem hj)).le_iff (hfi i _ (List.getElem?_eq_getElem hi')), hM]
      exact e2 j (by rw [List.length_cons] at hj; omega)
    · rintro ⟨p, hp, hq⟩
      have hi : i < (p0 :: t).length := (List.getElem?_eq_some_iff.1 hp).1
      rw [List.length_cons] at hi
      refine ⟨by omega, le_antisymm (e2 i (by omega)) ?_⟩
      rw [← e3']
      have hi0 : i0 < (p0 :: t).length := by rw [List.length_cons]; omega
      have := hq _ (List.getElem_mem hi0)
      exact ((hfi i0 _ (List.getElem?_eq_getElem hi0)).le_iff (hfi i p hp)).1 this

/-! ### C92 -/
theorem take_sum_is [FP] [FP.Exact] {ws : List ℝ} (j : ℕ) : (F64.sum ((ws.map F64.fin).take j)).Is (ws.take j).sum := by
  rw [← List.map_take]
  simpa using Is.sum_map (ws.take j) F64.fin id (fun a _ => Is.fin a)

/-- C92 (violated): `cdf(i)` is P(X ≤ i) exactly when category i has weight 0: the code sums the weights *before* i. -/
theorem C92_categorical_cdf_violated [FP] [FP.Exact] {ws : List ℝ} {d : Categorical}
    (h : Categorical.new (ws.map F64.fin) = .ok d) {i : ℕ} (hi : i < ws.length) :
    (d.cdf i).val.Is (∑ j ∈ Finset.range (i + 1), ws.getD j 0) ↔ ws[i] = 0 := by
  obtain ⟨e1, _⟩ := Categorical.ps_eq h
  have hs : ∀ n, n ≤ ws.length → ∑ j ∈ Finset.range n, ws.getD j 0 = (ws.take n).sum := by
    intro n
    induction n with
    | zero => simp
    | succ n ih =>
      intro hn
      rw [Finset.sum_range_succ, ih (by omega), List.take_succ_eq_append_getElem (by omega), List.sum_append]
      simp [List.getD_eq_getElem?_getD, List.getElem?_eq_getElem (show n < ws.length by omega)]
  have hc : (d.cdf i).val.Is (ws.take i).sum := by
    show (F64.sum (d.ps.ps.take i)).Is _
    rw [e1]; exact take_sum_is i
  rw [hs _ hi, List.take_succ_eq_append_getElem hi, List.sum_append]
  simp only [List.sum_cons, List.sum_nil, add_zero]
  constructor
  · intro hx; have := hx.eq hc; linarith
  · intro hx; rw [hx, add_zero]; exact hc

/-- C92 (what holds): `cdf(i)` is P(X < i); it is 0 at 0 and the total weight from N on, and is monotone. -/
theorem C92_categorical_cdf_partial [FP] [FP.Exact] {ws : List ℝ} {d : Categorical}
    (h : Categorical.new (ws.map F64.fin) = .ok d) :
    (∀ i, (d.cdf i).val.Is (ws.take i).sum) ∧ (∀ i, ws.length ≤ i → (d.cdf i).val.Is ws.sum) ∧
    |ws.sum - 1| < 1 / 100000 ∧ (∀ i j, i ≤ j → (d.cdf i).val ≤ (d.cdf j).val) := by
  obtain ⟨e1, e2⟩ := Categorical.ps_eq h
  have hc : ∀ i, (d.cdf i).val.Is (ws.take i).sum := fun i => by
    show (F64.sum (d.ps.ps.take i)).Is _
    rw [e1]; exact take_sum_is i
  have h0 : ∀ w ∈ ws, 0 ≤ w := fun w hw => by
    obtain ⟨r, hr, h0, _⟩ := e2 (F64.fin w) (List.mem_map_of_mem hw)
    rwa [hr.eq (Is.fin w)] at h0
  refine ⟨hc, fun i hi => (hc i).congr (by rw [List.take_of_length_le hi]), ?_, fun i j hij => ?_⟩
  · have h3 := ((C05_simplex_new_iff _ d.ps).1 (Categorical.new_ok.1 h)).2.2
    have hz : (F64.sum (ws.map F64.fin)).Is ws.sum := by simpa using Is.sum_map ws F64.fin id (fun a _ => Is.fin a)
    rw [(hz.sub Is.one).abs.lt_iff (Is.lit _)] at h3
    exact h3
  · rw [(hc i).le_iff (hc j)]
    obtain ⟨c, rfl⟩ := Nat.exists_eq_add_of_le hij
    rw [List.take_add, List.sum_append]
    have : 0 ≤ ((ws.drop i).take c).sum :=
      List.sum_nonneg fun x hx => h0 x (List.mem_of_mem_drop (List.mem_of_mem_take hx))
    linarith

/-- C127 (violated): the reported support [0, N+1] contains N and N + 1, on which `pmf` panics, for every accepted
weight vector. -/
theorem C127_categorical_support_violated [FP] {ps : List F64} {d : Categorical} (h : Categorical.new ps = .ok d) :
    ∀ i, i = ps.length ∨ i = ps.length + 1 →
      (d.support.1 ≤ i ∧ i ≤ d.support.2) ∧ ∃ e, d.pmf i = .error e := by
  obtain ⟨e1, _⟩ := Categorical.ps_eq h
  intro i hi
  have hs : d.support = (0, ps.length + 1) := by unfold Categorical.support; rw [e1]
  rw [hs]
  refine ⟨⟨Nat.zero_le _, by dsimp only; omega⟩, (C91_categorical_pmf h i).2 (by omega)⟩

/-- C127 (what holds): every category lies in the reported support. -/
theorem C127_categorical_support_partial [FP] {ps : List F64} {d : Categorical} (h : Categorical.new ps = .ok d) :
    ∀ i, i < ps.length → d.support.1 ≤ i ∧ i ≤ d.support.2 := by
  obtain ⟨e1, _⟩ := Categorical.ps_eq h
  intro i hi
  have hs : d.support = (0, ps.length + 1) := by unfold Categorical.support; rw [e1]
  rw [hs]; exact ⟨Nat.zero_le _, by dsimp only; omega⟩

section
attribute [local instance] exactFP exactFP_exact
theorem cat_example : ∃ d, Categorical.new (([1/2, 1/4, 1/4] : List ℝ).map F64.fin) = .ok d := by
  refine ⟨⟨⟨_⟩⟩, Categorical.new_ok.2 ((C05_simplex_new_iff _ _).2 ⟨rfl, ?_, ?_⟩)⟩
  · intro p hp
    simp only [List.map_cons, List.map_nil, List.mem_cons, List.not_mem_nil, or_false] at hp
    rcases hp with rfl | rfl | rfl
    · exact ⟨_, Is.fin _, by norm_num, by norm_num⟩
    · exact ⟨_, Is.fin _, by norm_num, by norm_num⟩
    · exact ⟨_, Is.fin _, by norm_num, by norm_num⟩
  · have hz : (F64.sum (([1/2, 1/4, 1/4] : List ℝ).map F64.fin)).Is 1 :=
      Is.congr (by simpa using take_sum_is (ws := [1/2, 1/4, 1/4]) 3) (by norm_num)
    rw [(hz.sub Is.one).abs.lt_iff (Is.lit _)]
    norm_num
example : ∃ d, Categorical.new (([1/2, 1/4, 1/4] : List ℝ).map F64.fin) = .ok d ∧
    ¬ (d.cdf 2).val.Is (∑ j ∈ Finset.range 3, ([1/2, 1/4, 1/4] : List ℝ).getD j 0) := by
  obtain ⟨d, hd⟩ := cat_example
  refine ⟨d, hd, fun hc => ?_⟩
  have := (C92_categorical_cdf_violated hd (i := 2) (by simp)).1 hc
  norm_num at this
end
end Rstat
