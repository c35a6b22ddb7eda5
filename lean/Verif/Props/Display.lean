import Verif.Lemmas.Display
import Verif.Lemmas.B64Eval
import Verif.Lemmas.FloatMono
import Verif.Props.Normal2
import Verif.Props.Dist.Arcsine
import Verif.Props.Dist.Uniform
import Verif.Props.Dist.Triangular
import Verif.Props.Dist.LogNormal
import Verif.Props.Dist.FoldedNormal

/-! Properties C232 (printed parameters), C233 (printed derived quantities), C234 (constraints and error messages). -/
set_option linter.unusedSectionVars false
namespace Rstat

section
variable [NumFmt] [NumFmt.Lawful]

/-- C232: two distributions - of any of the thirty families that print their parameters - whose texts are equal are of the
same family and have the same parameters, whatever those are. -/
theorem C232_text_identifies_distribution (p q : AnyDist) (hp : ∀ a ∈ p.params, a.Ok) (hq : ∀ a ∈ q.params, a.Ok)
    (h : p.text = q.text) : p.family = q.family ∧ p.params = q.params := by
  rw [p.text_eq, q.text_eq] at h
  obtain ⟨h1, h2⟩ := call_read p.family.name_clean q.family.name_clean
    (fun a ha => by obtain ⟨b, _, rfl⟩ := List.mem_map.1 ha; exact b.shown_plain)
    (fun a ha => by obtain ⟨b, _, rfl⟩ := List.mem_map.1 ha; exact b.shown_plain) h
  have hf := Family.name_inj h1
  exact ⟨hf, Num.shown_inj _ _ hp hq (by rw [p.kinds_eq, q.kinds_eq, hf]) h2⟩

/-- C232: the text is the name of the family followed by the parameters, in the order of the constructor, in parentheses. -/
theorem C232_text_lists_parameters (p : AnyDist) :
    p.text = txt p.family.name ++ txt "(" ++ commas (p.params.map Num.shown) ++ txt ")" := p.text_eq

theorem call_inj1 {n : String} {a b : Text} (h : call n [a] = call n [b]) : a = b := by
  unfold call at h
  simp only [commas, List.append_assoc] at h
  exact List.append_cancel_right (List.append_cancel_left (List.append_cancel_left h))

theorem call_inj2 {n : String} {α β : Type} {f : α → Text} {g : β → Text} {P : α → Prop} {Q : β → Prop} (hf : Code f P)
    (hg : Code g Q) {a a' : α} {b b' : β} (ha : P a) (ha' : P a') (hb : Q b) (hb' : Q b')
    (h : call n [f a, g b] = call n [f a', g b']) : a = a' ∧ b = b' := by
  have hs : ∀ r, Close (txt ", " ++ r) := fun r => by
    rw [show txt ", " = [',', ' '] by decide]; exact Close.cons (by decide)
  unfold call at h
  simp only [commas, List.append_assoc] at h
  have h := List.append_cancel_left (List.append_cancel_left h)
  obtain ⟨e1, h⟩ := hf.read _ _ _ _ ha ha' (hs _) (hs _) h
  exact ⟨e1, hg.inj hb hb' (List.append_cancel_right (List.append_cancel_left h))⟩

/-- C232: the text of a simplex vector identifies it -/
theorem simplex_dbg_inj {s t : SimplexVector} (hs : ∀ x ∈ s.ps, x.Representable) (ht : ∀ x ∈ t.ps, x.Representable)
    (h : s.dbg = t.dbg) : s = t := by
  ext1
  exact (dbgList_code dbgF_code).inj hs ht (call_inj1 h)

/-- C232, vector-valued and point families: the text identifies the parameters of categorical, Dirichlet, multinomial and
isotropic log-normal distributions of every dimension (for the categorical law also the dimension), of both point
masses and of the paired normal. -/
theorem C232_text_identifies_vector_distribution :
    (∀ d e : Categorical, (∀ x ∈ d.ps.ps, x.Representable) → (∀ x ∈ e.ps.ps, x.Representable) → d.fmt = e.fmt → d = e) ∧
    (∀ (n : ℕ) (d e : Dirichlet n), (∀ i, (d.alphas i).Representable) → (∀ i, (e.alphas i).Representable) →
      d.fmt = e.fmt → d.alphas = e.alphas) ∧
    (∀ (n : ℕ) (d e : Multinomial n), (∀ i, (d.ps i).Representable) → (∀ i, (e.ps i).Representable) → d.fmt = e.fmt → d = e) ∧
    (∀ (n : ℕ) (d e : MvLogN (IsoNormal n)), (∀ i, (d.normal.mu i).Representable) → (∀ i, (e.normal.mu i).Representable) →
      d.normal.Sigma.Representable → e.normal.Sigma.Representable → d.fmtIso = e.fmtIso →
      d.normal.mu = e.normal.mu ∧ d.normal.Sigma = e.normal.Sigma) ∧
    (∀ d e : DegenerateF, d.k.Representable → e.k.Representable → d.fmt = e.fmt → d = e) ∧
    (∀ d e : DegenerateI, d.fmt = e.fmt → d = e) ∧
    (∀ (d e : PairedNormal), (∀ i, (d.mu i).Representable ∧ (d.S i).Representable) →
      (∀ i, (e.mu i).Representable ∧ (e.S i).Representable) → d.fmt = e.fmt → d = e) := by
  have hof : ∀ {n : ℕ} {f : Fin n → F64}, (∀ i, (f i).Representable) → ∀ x ∈ List.ofFn f, x.Representable := fun hf x hx => by
    obtain ⟨i, rfl⟩ := List.mem_ofFn.1 hx; exact hf i
  refine ⟨fun d e hd he h => ?_, fun n d e hd he h => ?_, fun n d e hd he h => ?_, fun n d e h1 h2 h3 h4 h => ?_,
    fun d e hd he h => ?_, fun d e h => ?_, fun d e hd he h => ?_⟩
  · ext1; exact simplex_dbg_inj hd he (call_inj1 h)
  · exact List.ofFn_injective ((dbgList_code dbgF_code).inj (hof hd) (hof he) (call_inj1 h))
  · unfold Multinomial.fmt at h
    have hs : ∀ r, Close (txt "; " ++ r) := fun r => by
      rw [show txt "; " = [';', ' '] by decide]; exact Close.cons (by decide)
    simp only [List.append_assoc] at h
    obtain ⟨e1, h⟩ := decN_code.read _ _ _ _ trivial trivial (hs _) (hs _) (List.append_cancel_left h)
    have e2 := simplex_dbg_inj (hof hd) (hof he) (List.append_cancel_right (List.append_cancel_left h))
    ext1
    · exact e1
    · exact List.ofFn_injective (SimplexVector.mk.inj e2)
  · obtain ⟨e1, e2⟩ := call_inj2 (dbgList_code dbgF_code) dispF_code (hof h1) (hof h2) h3 h4 h
    exact ⟨List.ofFn_injective e1, e2⟩
  · unfold DegenerateF.fmt at h
    simp only [List.append_assoc] at h
    ext1; exact dispF_code.inj hd he (List.append_cancel_right (List.append_cancel_left h))
  · unfold DegenerateI.fmt at h
    simp only [List.append_assoc] at h
    ext1; exact decI_inj _ _ (List.append_cancel_right (List.append_cancel_left h))
  · let _ := exactFP
    have z : (0 : F64).Representable := ⟨B64.rnd_zero, by rw [abs_zero]; positivity⟩
    have hm : ∀ d : PairedNormal, (∀ i, (d.mu i).Representable ∧ (d.S i).Representable) →
        ∀ l ∈ [[d.S 0, 0], [0, d.S 1]], ∀ x ∈ l, x.Representable := fun d hd l hl x hx => by
      simp only [List.mem_cons, List.not_mem_nil, or_false] at hl
      rcases hl with rfl | rfl <;> simp only [List.mem_cons, List.not_mem_nil, or_false] at hx <;> rcases hx with rfl | rfl
      · exact (hd 0).2
      · exact z
      · exact z
      · exact (hd 1).2
    have hfmt : ∀ d : PairedNormal, d.fmt = call "N" [dbgList ((List.ofFn d.mu).map NumFmt.dbgF),
        dbgList ([[d.S 0, 0], [0, d.S 1]].map fun l => dbgList (l.map NumFmt.dbgF))] := fun d => rfl
    rw [hfmt, hfmt] at h
    obtain ⟨e1, e2⟩ := call_inj2 (dbgList_code dbgF_code) (dbgList_code (dbgList_code dbgF_code)) (hof fun i => (hd i).1)
      (hof fun i => (he i).1) (hm d hd) (hm e he) h
    simp only [List.cons.injEq, and_true, true_and] at e2
    ext1
    · exact List.ofFn_injective e1
    · funext i; fin_cases i
      · exact e2.1
      · exact e2.2

/-- C234: the text of a constraint, however nested, identifies which values it accepts. -/
theorem C234_constraint_text {t : Ty} (c c' : Cst t) (hc : c.Rep) (hc' : c'.Rep) (h : c.fmt = c'.fmt) :
    ∀ v, c.sat v = c'.sat v := by
  rw [c.fmt_eq, c'.fmt_eq] at h
  have := (Tree.read c.tree c'.tree [] [] c.tree_ok c'.tree_ok Close.nil Close.nil (by rw [h])).1
  intro v
  rw [← Tree.interp_tree c hc, ← Tree.interp_tree c' hc', this]

/-- C234: the message of an unsatisfied-constraint error identifies the offending value, the parameter it was meant for (if
recorded) and the constraint, up to constraints accepting the same values. -/
theorem C234_error_message {quote : String → Text} (hq : SelfDelimiting quote) {t : Ty} (e e' : UCE t) (hv : t.Rep e.value)
    (hv' : t.Rep e'.value) (hc : e.constraint.Rep) (hc' : e'.constraint.Rep) (h : e.fmt quote = e'.fmt quote) :
    e.value = e'.value ∧ e.target = e'.target ∧ ∀ v, e.constraint.sat v = e'.constraint.sat v := by
  obtain ⟨v, tg, c⟩ := e
  obtain ⟨v', tg', c'⟩ := e'
  have hs : ∀ r : Text, Close (txt " on " ++ r) := fun r => by
    rw [show txt " on " = [' ', 'o', 'n', ' '] by decide]; exact Close.cons (by decide)
  have hs' : ∀ r : Text, Close (txt " is unsatisfied for value " ++ r) := fun r => by
    rw [show txt " is unsatisfied for value " = ' ' :: txt "is unsatisfied for value " by decide]; exact Close.cons (by decide)
  have hne : ∀ r r' : Text, txt " on " ++ r ≠ txt " is unsatisfied for value " ++ r' := fun r r' e => by
    rw [show txt " on " = [' ', 'o', 'n', ' '] by decide,
      show txt " is unsatisfied for value " = ' ' :: 'i' :: txt "s unsatisfied for value " by decide] at e
    simp at e
  have key : ∀ {r r' : Text}, Close r → Close r' → c.fmt ++ r = c'.fmt ++ r' → (∀ v, c.sat v = c'.sat v) ∧ r = r' := by
    intro r r' hr hr' e
    rw [c.fmt_eq, c'.fmt_eq] at e
    obtain ⟨e1, e2⟩ := Tree.read _ _ _ _ c.tree_ok c'.tree_ok hr hr' e
    exact ⟨fun v => by rw [← Tree.interp_tree c hc, ← Tree.interp_tree c' hc', e1], e2⟩
  have val : txt " is unsatisfied for value " ++ (t.dbg v ++ txt ".") =
      txt " is unsatisfied for value " ++ (t.dbg v' ++ txt ".") → v = v' := fun e =>
    (Ty.dbg_code t).inj hv hv' (List.append_cancel_right (List.append_cancel_left e))
  cases tg with
  | none =>
    cases tg' with
    | none =>
      simp only [UCE.fmt, List.append_assoc] at h
      obtain ⟨h1, h2⟩ := key (hs' _) (hs' _) (List.append_cancel_left h)
      exact ⟨val h2, rfl, h1⟩
    | some s =>
      simp only [UCE.fmt, List.append_assoc] at h
      obtain ⟨h1, h2⟩ := key (hs' _) (hs _) (List.append_cancel_left h)
      exact absurd h2.symm (hne _ _)
  | some s =>
    cases tg' with
    | none =>
      simp only [UCE.fmt, List.append_assoc] at h
      obtain ⟨h1, h2⟩ := key (hs _) (hs' _) (List.append_cancel_left h)
      exact absurd h2 (hne _ _)
    | some s' =>
      simp only [UCE.fmt, List.append_assoc] at h
      obtain ⟨h1, h2⟩ := key (hs _) (hs _) (List.append_cancel_left h)
      obtain ⟨rfl, h3⟩ := hq _ _ _ _ (List.append_cancel_left h2)
      exact ⟨val h3, rfl, h1⟩

/-- C234: the messages of the two probability errors identify the rejected value and the rejected vector. -/
theorem C234_probability_error_messages :
    (∀ x y : F64, x.Representable → y.Representable → invalidProbabilityText x = invalidProbabilityText y → x = y) ∧
    (∀ xs ys : List F64, (∀ x ∈ xs, x.Representable) → (∀ y ∈ ys, y.Representable) →
      invalidSimplexText xs = invalidSimplexText ys → xs = ys) := by
  refine ⟨fun x y hx hy h => ?_, fun xs ys hx hy h => ?_⟩
  · simp only [invalidProbabilityText, List.append_assoc] at h
    exact NumFmt.Lawful.disp_inj x y hx hy (List.append_cancel_right (List.append_cancel_left h))
  · simp only [invalidSimplexText, List.append_assoc] at h
    exact (dbgList_code dbgF_code).inj hx hy (List.append_cancel_right (List.append_cancel_left h))
end

/-! ### Texts showing derived quantities -/
section
variable [NumFmt] [NumFmt.Lawful]

/-- C233 (what holds): where a text shows quantities computed from the parameters, it identifies those quantities: the end
points of the support of an arcsine or uniform law, the end points and the peak of a triangular law, location and
variance of the log-normal and folded normal laws, and, when the interval fits in i64, both parameters of the discrete
uniform law, and mean vector and covariance matrix of the bivariate normal law. Missing: the parameters themselves, see `C233_text_loses_parameters_violated`. -/
theorem C233_text_identifies_derived_partial [FP] :
    (∀ d e : Arcsine, d.a.Representable → e.a.Representable → d.b.Representable → e.b.Representable → d.fmt = e.fmt →
      d.a = e.a ∧ d.b = e.b) ∧
    (∀ d e : UniformF, d.lb.Representable → e.lb.Representable → (d.lb + d.width).Representable →
      (e.lb + e.width).Representable → d.fmt = e.fmt → d.lb = e.lb ∧ d.lb + d.width = e.lb + e.width) ∧
    (∀ d e : Triangular, d.a.Representable → e.a.Representable → d.b.Representable → e.b.Representable → d.c.Representable →
      e.c.Representable → d.fmt = e.fmt → d.a = e.a ∧ d.b = e.b ∧ d.c = e.c) ∧
    (∀ d e : LogNormal, d.normal.mu.Representable → e.normal.mu.Representable → d.variance.Representable →
      e.variance.Representable → d.fmt = e.fmt → d.normal.mu = e.normal.mu ∧ d.variance = e.variance) ∧
    (∀ d e : FoldedNormal, d.mu.Representable → e.mu.Representable → d.variance.Representable →
      e.variance.Representable → d.fmt = e.fmt → d.mu = e.mu ∧ d.variance = e.variance) ∧
    (∀ (pr : Profile) (d e : UniformI), -2 ^ 63 ≤ d.lb + d.width → d.lb + d.width ≤ 2 ^ 63 - 1 → -2 ^ 63 ≤ e.lb + e.width →
      e.lb + e.width ≤ 2 ^ 63 - 1 → ∃ t, d.fmt pr = .ok t ∧ (e.fmt pr = .ok t → d.lb = e.lb ∧ d.width = e.width)) ∧
    (∀ d e : BvNormal, (∀ i, (d.mean i).Representable ∧ (e.mean i).Representable) →
      (∀ i j, (d.covariance i j).Representable ∧ (e.covariance i j).Representable) → d.fmt = e.fmt →
      d.mean = e.mean ∧ d.covariance = e.covariance) := by
  refine ⟨fun d e h1 h2 h3 h4 h => call_inj2 dispF_code dispF_code h1 h2 h3 h4 h,
    fun d e h1 h2 h3 h4 h => call_inj2 dispF_code dispF_code h1 h2 h3 h4 h, fun d e h1 h2 h3 h4 h5 h6 h => ?_,
    fun d e h1 h2 h3 h4 h => call_inj2 dispF_code dispF_code h1 h2 h3 h4 h,
    fun d e h1 h2 h3 h4 h => call_inj2 dispF_code dispF_code h1 h2 h3 h4 h, fun pr d e h1 h2 h3 h4 => ?_,
    fun d e hm hc h => ?_⟩
  · have hp : ∀ x y z : F64, ∀ a ∈ [NumFmt.dispF x, NumFmt.dispF y, NumFmt.dispF z], Plain a := fun x y z a ha => by
      simp only [List.mem_cons, List.not_mem_nil, or_false] at ha
      rcases ha with rfl | rfl | rfl <;> exact NumFmt.Lawful.disp_plain _
    have := (call_read (by unfold Clean; decide) (by unfold Clean; decide) (hp _ _ _) (hp _ _ _) h).2
    simp only [List.cons.injEq, and_true] at this
    exact ⟨NumFmt.Lawful.disp_inj _ _ h1 h2 this.1, NumFmt.Lawful.disp_inj _ _ h3 h4 this.2.1,
      NumFmt.Lawful.disp_inj _ _ h5 h6 this.2.2⟩
  · have c1 : i64chk pr (d.lb + d.width) = .ok (d.lb + d.width) := i64chk_ok ⟨by unfold I64MIN; omega, by unfold I64MAX; omega⟩
    have c2 : i64chk pr (e.lb + e.width) = .ok (e.lb + e.width) := i64chk_ok ⟨by unfold I64MIN; omega, by unfold I64MAX; omega⟩
    unfold UniformI.fmt
    rw [c1, c2]
    refine ⟨_, rfl, fun h => ?_⟩
    have h := Except.ok.inj h
    simp only [List.append_assoc] at h
    have h := List.append_cancel_right (List.append_cancel_left h)
    simp only [commas, List.append_assoc] at h
    have hs : ∀ r, Close (txt ", " ++ r) := fun r => by
      rw [show txt ", " = [',', ' '] by decide]; exact Close.cons (by decide)
    obtain ⟨e1, h⟩ := decI_code.read _ _ _ _ trivial trivial (hs _) (hs _) h
    have e2 := decI_inj _ _ (List.append_cancel_left h)
    omega
  · have hof : ∀ {f : Fin 2 → F64}, (∀ i, (f i).Representable) → ∀ x ∈ List.ofFn f, x.Representable := fun hf x hx => by
      obtain ⟨i, rfl⟩ := List.mem_ofFn.1 hx; exact hf i
    have hmm : ∀ {f : Fin 2 → Fin 2 → F64}, (∀ i j, (f i j).Representable) →
        ∀ l ∈ List.ofFn fun i => List.ofFn (f i), ∀ x ∈ l, x.Representable := fun hf l hl => by
      obtain ⟨i, rfl⟩ := List.mem_ofFn.1 hl; exact hof (hf i)
    have hfmt : ∀ d : BvNormal, d.fmt = call "N" [dbgList ((List.ofFn d.mean).map NumFmt.dbgF),
        dbgList ((List.ofFn fun i => List.ofFn (d.covariance i)).map fun l => dbgList (l.map NumFmt.dbgF))] := fun d => rfl
    rw [hfmt, hfmt] at h
    obtain ⟨e1, e2⟩ := call_inj2 (dbgList_code dbgF_code) (dbgList_code (dbgList_code dbgF_code)) (hof fun i => (hm i).1)
      (hof fun i => (hm i).2) (hmm fun i j => (hc i j).1) (hmm fun i j => (hc i j).2) h
    exact ⟨List.ofFn_injective e1, funext fun i => List.ofFn_injective (congrFun (List.ofFn_injective e2) i)⟩
end

section
open B64
attribute [local instance] binary64 binary64_lawful
variable [NumFmt]

theorem two53_add {w : ℝ} (h0 : 0 < w) (h1 : w < 1) : F64.fin (2 ^ 53) + F64.fin w = F64.fin (2 ^ 53) := by
  have hr : rnd (2 ^ 53 + w) = 2 ^ 53 := by
    rw [rnd_eq (x := 2 ^ 53 + w) (2 ^ 52) 1 (by norm_num) (by norm_num; linarith) (by norm_num; linarith)
      (by rw [abs_lt]; constructor <;> norm_num <;> linarith)]
    norm_num
  show F64.round (2 ^ 53 + w) = _
  unfold F64.round
  have hh : ¬ FP.huge (FP.rnd (2 ^ 53 + w)) := by
    show ¬ (2:ℝ) ^ 1024 ≤ |rnd (2 ^ 53 + w)|
    rw [hr, abs_of_pos (by positivity), not_le]
    exact pow_lt_pow_right₀ (by norm_num) (by norm_num)
  rw [if_neg hh, if_neg (fun h => by linarith [h.2]), show FP.rnd (2 ^ 53 + w) = (2:ℝ) ^ 53 from hr]

theorem sq_overflow {r : ℝ} (h : 2 ^ 600 ≤ r) : F64.fin r * F64.fin r = F64.pinf := by
  have h0 : 0 < r := lt_of_lt_of_le (by positivity) h
  have hb : (2:ℝ) ^ 1024 ≤ r * r := by
    calc (2:ℝ) ^ 1024 ≤ 2 ^ 600 * 2 ^ 600 := by rw [← pow_add]; exact pow_le_pow_right₀ (by norm_num) (by norm_num)
      _ ≤ r * r := mul_le_mul h h (by positivity) h0.le
  have hr : (2:ℝ) ^ 1024 ≤ rnd (r * r) := by
    have := rnd_mono hb
    have e : rnd ((2:ℝ) ^ 1024) = 2 ^ 1024 := by
      have := rnd_repr 1 1024 (by norm_num) (by norm_num)
      rwa [Int.cast_one, one_mul, show (2:ℝ) ^ (1024:ℤ) = 2 ^ 1024 from zpow_natCast 2 1024] at this
    rwa [e] at this
  have hm := F64.mul_finite (F64.Is.fin r) (F64.Is.fin r)
  rw [if_neg (mul_pos h0 h0).ne'] at hm
  rw [hm]
  unfold F64.round
  have hh : FP.huge (FP.rnd (r * r)) := by
    show (2:ℝ) ^ 1024 ≤ |rnd (r * r)|
    exact hr.trans (le_abs_self _)
  rw [if_pos hh, if_pos (mul_pos h0 h0)]

theorem pinf_sub_cases (x : F64) : F64.pinf - x = F64.pinf ∨ F64.pinf - x = F64.nan := by
  cases x with
  | fin r =>
    left
    show F64.add F64.pinf (-(F64.fin r)) = _
    have : (-(F64.fin r)) = F64.negZero ∨ (-(F64.fin r)) = F64.fin (-r) := by
      show F64.neg _ = _ ∨ F64.neg _ = _
      unfold F64.neg; by_cases h : r = 0
      · left; exact if_pos h
      · right; exact if_neg h
    rcases this with e | e <;> rw [e] <;> rfl
  | nan => right; rfl
  | pinf => right; rfl
  | ninf => left; rfl
  | negZero => left; rfl

/-- C233 (violated): parameters lost in the text, in binary64. All uniform laws, and all arcsine laws, starting at `2^53` with
a width below 1 print the same text, an interval of length zero; so do all triangular laws there. All log-normal laws with
the same nonnegative location and a scale of at least `2^600` print the same text, and among any three folded normal laws with
location 0 and such a scale two do. The text of a discrete uniform law whose upper end leaves i64 cannot be produced at
all in a debug build. -/
theorem C233_text_loses_parameters_violated :
    (∀ w w' : ℝ, 0 < w → w < 1 → 0 < w' → w' < 1 → ∃ d e, UniformF.new (.fin (2 ^ 53)) (.fin w) = .ok d ∧
      UniformF.new (.fin (2 ^ 53)) (.fin w') = .ok e ∧ d.fmt = e.fmt ∧
      d.fmt = call "U" [NumFmt.dispF (.fin (2 ^ 53)), NumFmt.dispF (.fin (2 ^ 53))]) ∧
    (∀ w w' : ℝ, 0 < w → w < 1 → 0 < w' → w' < 1 → ∃ d e, Arcsine.new (.fin (2 ^ 53)) (.fin w) = .ok d ∧
      Arcsine.new (.fin (2 ^ 53)) (.fin w') = .ok e ∧ d.fmt = e.fmt ∧
      d.fmt = call "Arcsine" [NumFmt.dispF (.fin (2 ^ 53)), NumFmt.dispF (.fin (2 ^ 53))]) ∧
    (∀ p q : ℝ, 0 < p → p < 1 → 0 < q → q < 1 → ∃ d, Triangular.new (.fin (2 ^ 53)) (.fin p) (.fin q) = .ok d ∧
      d.fmt = call "Triangular" [NumFmt.dispF (.fin (2 ^ 53)), NumFmt.dispF (.fin (2 ^ 53)), NumFmt.dispF (.fin (2 ^ 53))]) ∧
    (∀ m r : ℝ, 0 ≤ m → 2 ^ 600 ≤ r → ∃ d, LogNormal.new (.fin m) (.fin r) = .ok d ∧
      d.fmt = call "LogNormal" [NumFmt.dispF (.fin m), NumFmt.dispF .pinf]) ∧
    (∀ r s t : ℝ, 2 ^ 600 ≤ r → 2 ^ 600 ≤ s → 2 ^ 600 ≤ t → ∃ d e f, FoldedNormal.new (.fin 0) (.fin r) = .ok d ∧
      FoldedNormal.new (.fin 0) (.fin s) = .ok e ∧ FoldedNormal.new (.fin 0) (.fin t) = .ok f ∧
      (d.fmt = e.fmt ∨ e.fmt = f.fmt ∨ d.fmt = f.fmt)) ∧
    (∀ d : UniformI, 2 ^ 63 - 1 < d.lb + d.width → d.fmt .debug = .error .overflow) := by
  have p53 : F64.fin (2 ^ 53) = F64.fin (2 ^ 53) := rfl
  have pos : ∀ {w : ℝ}, 0 < w → (0 : F64) < F64.fin w := fun h => lt_of_pos h (F64.Is.fin _)
  refine ⟨fun w w' h0 h1 h2 h3 => ⟨_, _, UniformF.new_ok.2 ⟨pos h0, rfl⟩, UniformF.new_ok.2 ⟨pos h2, rfl⟩, ?_, ?_⟩,
    fun w w' h0 h1 h2 h3 => ⟨_, _, Arcsine.new_ok.2 ⟨pos h0, rfl⟩, Arcsine.new_ok.2 ⟨pos h2, rfl⟩, ?_, ?_⟩,
    fun p q h0 h1 h2 h3 => ⟨_, Triangular.new_ok.2 ⟨pos h0, pos h2, rfl⟩, ?_⟩,
    fun m r hm h => ⟨_, LogNormal.new_ok.2 ⟨pos (lt_of_lt_of_le (by positivity) h), rfl⟩, ?_⟩,
    fun r s t h1 h2 h3 => ⟨_, _, _, FoldedNormal.new_ok.2 ⟨pos (lt_of_lt_of_le (by positivity) h1), rfl⟩,
      FoldedNormal.new_ok.2 ⟨pos (lt_of_lt_of_le (by positivity) h2), rfl⟩,
      FoldedNormal.new_ok.2 ⟨pos (lt_of_lt_of_le (by positivity) h3), rfl⟩, ?_⟩, fun d hd => ?_⟩
  · unfold UniformF.fmt; dsimp only; rw [two53_add h0 h1, two53_add h2 h3]
  · unfold UniformF.fmt; dsimp only; rw [two53_add h0 h1]
  · unfold Arcsine.fmt Arcsine.b; dsimp only; rw [two53_add h0 h1, two53_add h2 h3]
  · unfold Arcsine.fmt Arcsine.b; dsimp only; rw [two53_add h0 h1]
  · unfold Triangular.fmt Triangular.b Triangular.c; dsimp only; rw [two53_add h0 h1, two53_add h2 h3]
  · unfold LogNormal.fmt LogNormal.variance; dsimp only
    rw [sq_overflow h]
    have h2 : (2 * F64.fin m + F64.pinf) = F64.pinf := by
      have add_p : ∀ x : F64, x ≠ .nan → x ≠ .ninf → x + F64.pinf = .pinf := fun x h1 h2 => by
        cases x <;> first | rfl | exact absurd rfl h1 | exact absurd rfl h2
      have hp := F64.mul_finite (F64.Is.num 2) (F64.Is.fin m)
      have hp' : (2 : F64) * F64.fin m = if ((2:ℕ):ℝ) * m = 0 then _ else F64.round (((2:ℕ):ℝ) * m) := hp
      by_cases h0 : ((2:ℕ):ℝ) * m = 0
      · rw [if_pos h0] at hp'
        rw [hp']
        unfold F64.szero
        split <;> rfl
      · rw [if_neg h0] at hp'
        rw [hp']
        have hm0 : 0 < ((2:ℕ):ℝ) * m := lt_of_le_of_ne (by positivity) (Ne.symm h0)
        unfold F64.round
        split
        · first | rfl | (rw [if_pos hm0]; rfl)
        · split <;> rfl
    rw [h2, show F64.pinf.exp = F64.pinf from rfl, show F64.pinf - 1 = F64.pinf from (by
      rcases pinf_sub_cases (1 : F64) with h | h
      · exact h
      · rw [F64.Is.eq_fin (F64.Is.one) (by norm_num)] at h ⊢
        show F64.add F64.pinf (F64.neg (F64.fin 1)) = _
        simp only [F64.neg, if_neg (one_ne_zero (α := ℝ))]; rfl), show F64.pinf * F64.pinf = F64.pinf from (by simp [HMul.hMul, Mul.mul, F64.mul, F64.sinf])]
  · have z0 : ∀ r : ℝ, 2 ^ 600 ≤ r → (F64.fin 0 * F64.fin 0 + F64.fin r * F64.fin r) = F64.pinf := fun r h => by
      rw [sq_overflow h]
      have hp := F64.mul_finite (F64.Is.fin 0) (F64.Is.fin 0)
      rw [if_pos (mul_zero _)] at hp
      rw [hp]; unfold F64.szero; split <;> rfl
    have hv : ∀ r : ℝ, 2 ^ 600 ≤ r → (FoldedNormal.mk (.fin 0) (.fin r)).variance = .pinf ∨
        (FoldedNormal.mk (.fin 0) (.fin r)).variance = .nan := fun r h => by
      unfold FoldedNormal.variance; dsimp only
      rw [z0 r h]; exact pinf_sub_cases _
    unfold FoldedNormal.fmt
    rcases hv r h1 with a | a <;> rcases hv s h2 with b | b <;> rcases hv t h3 with c | c <;> rw [a, b, c] <;> simp
  · have : ¬ (I64MIN ≤ d.lb + d.width ∧ d.lb + d.width ≤ I64MAX) := by unfold I64MAX; omega
    unfold UniformI.fmt
    simp only [i64chk, if_neg this]
    rfl
end

/-! ### Contract is satisfiable -/

theorem representable_countable : {x : F64 | x.Representable}.Countable := by
  have h : {x : F64 | x.Representable} ⊆ {F64.nan, F64.pinf, F64.ninf, F64.negZero} ∪
      Set.range (fun p : ℤ × ℤ => F64.fin (p.1 * 2 ^ p.2)) := by
    intro x hx
    match x, hx with
    | .nan, _ => simp
    | .pinf, _ => simp
    | .ninf, _ => simp
    | .negZero, _ => simp
    | .fin r, hx => exact .inr ⟨(B64.rne (r / 2 ^ B64.ulpExp r), B64.ulpExp r), congrArg F64.fin hx.1⟩
  exact Set.Countable.mono h ((Set.Finite.countable (by simp)).union (Set.countable_range _))

open Classical in
/-- enumerate the 64-bit values and print the index -/
noncomputable def someText (x : F64) : Text :=
  if h : x.Representable then decN (representable_countable.toEncodable.encode ⟨x, h⟩) else ['?']
/-- some printer meeting the contract -/
@[reducible] noncomputable def someFmt : NumFmt := ⟨someText, someText⟩

theorem someFmt_lawful : @NumFmt.Lawful someFmt := by
  have hi : ∀ x y : F64, x.Representable → y.Representable → someText x = someText y → x = y := by
    intro x y hx hy h
    simp only [someText, dif_pos hx, dif_pos hy] at h
    have := @Encodable.encode_injective _ (representable_countable.toEncodable) _ _ (decN_inj _ _ h)
    exact congrArg Subtype.val this
  have hp : ∀ x : F64, Plain (someText x) := by
    intro x
    unfold someText
    split
    · exact ⟨(decN_plain _).1, fun c hc => ((decN_plain _).2 c hc).1⟩
    · exact ⟨by decide, by decide⟩
  exact @NumFmt.Lawful.mk someFmt hi hp hi hp

section
attribute [local instance] someFmt someFmt_lawful
theorem rep_half : (F64.fin (1 / 2)).Representable :=
  ⟨by simpa using B64.rnd_repr 1 (-1) (by norm_num) (by norm_num), by
    rw [abs_of_pos (by norm_num)]
    exact lt_of_lt_of_le (by norm_num : (1 / 2 : ℝ) < 1) (one_le_pow₀ (by norm_num))⟩
theorem rep_one : (F64.fin 1).Representable :=
  ⟨by simpa using B64.rnd_repr 1 0 (by norm_num) (by norm_num), by
    rw [abs_one]; exact one_lt_pow₀ (by norm_num) (by norm_num)⟩
/-- the hypotheses of C232 are met by two genuine distributions with different texts -/
example : (AnyDist.beta ⟨.fin 1, .fin (1 / 2)⟩).text ≠ (AnyDist.beta ⟨.fin (1 / 2), .fin 1⟩).text := by
  intro h
  have := (C232_text_identifies_distribution _ _ (by
    simp only [AnyDist.params, List.mem_cons, List.not_mem_nil, or_false, forall_eq_or_imp, forall_eq]; exact ⟨rep_one, rep_half⟩) (by
    simp only [AnyDist.params, List.mem_cons, List.not_mem_nil, or_false, forall_eq_or_imp, forall_eq]; exact ⟨rep_half, rep_one⟩) h).2
  simp only [AnyDist.params, List.cons.injEq, Num.f.injEq, F64.fin.injEq] at this
  norm_num at this
example : (Cst.not (.lessThan (s := .f64) (.fin 1))).fmt ≠ (Cst.not (.lessThan (s := .f64) (.fin (1 / 2)))).fmt := by
  intro h
  have h1 := C234_constraint_text (Cst.not (.lessThan (s := .f64) (.fin 1))) (Cst.not (.lessThan (s := .f64) (.fin (1 / 2))))
    (by simpa only [Cst.Rep, Ty.Rep] using rep_one) (by simpa only [Cst.Rep, Ty.Rep] using rep_half) h (F64.fin (1 / 2))
  have a1 : Sc.lt .f64 (F64.fin (1 / 2)) (F64.fin 1) := F64.fin_lt_fin.2 (by norm_num)
  have a2 : ¬ Sc.lt .f64 (F64.fin (1 / 2)) (F64.fin (1 / 2)) := fun h => absurd (F64.fin_lt_fin.1 h) (lt_irrefl _)
  simp only [Cst.sat, a1, a2, decide_true, decide_false] at h1
  exact absurd h1 (by decide)

/-- a quoting printer meeting the contract: every character escaped, closed by a quotation mark -/
def someQuote (s : String) : Text := s.toList.flatMap (fun c => ['\\', c]) ++ ['"']
theorem someQuote_selfDelimiting : SelfDelimiting someQuote := by
  intro s s' r r' h
  have key : ∀ l l' : List Char, (l.flatMap (fun c => ['\\', c]) ++ ['"']) ++ r = (l'.flatMap (fun c => ['\\', c]) ++ ['"']) ++ r' →
      l = l' ∧ r = r' := by
    intro l
    induction l with
    | nil =>
      intro l' e
      cases l' with
      | nil => exact ⟨rfl, by simpa using e⟩
      | cons c l' => simp at e
    | cons a l ih =>
      intro l' e
      cases l' with
      | nil => simp at e
      | cons c l' =>
        simp only [List.flatMap_cons, List.cons_append, List.nil_append, List.cons.injEq, true_and] at e
        obtain ⟨rfl, e⟩ := e
        obtain ⟨rfl, e3⟩ := ih l' e
        exact ⟨rfl, e3⟩
  obtain ⟨e1, e2⟩ := key _ _ h
  exact ⟨String.toList_injective e1, e2⟩
/-- two errors that differ in the offending value print differently -/
example : (UCE.mk (t := .sc .f64) (.fin 1) (some "mu") (.lessThan (s := .f64) (.fin (1 / 2)))).fmt someQuote ≠
    (UCE.mk (t := .sc .f64) (.fin (1 / 2)) (some "mu") (.lessThan (s := .f64) (.fin (1 / 2)))).fmt someQuote := by
  intro h
  have h1 := (C234_error_message someQuote_selfDelimiting _ _ (by simpa only [Cst.Rep, Ty.Rep] using rep_one)
    (by simpa only [Cst.Rep, Ty.Rep] using rep_half) (by simpa only [Cst.Rep, Ty.Rep] using rep_half)
    (by simpa only [Cst.Rep, Ty.Rep] using rep_half) h).1
  have := F64.fin.inj h1
  norm_num at this
end
end Rstat
