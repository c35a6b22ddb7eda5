import Verif.Props.FloatFit
import Verif.Props.FloatMoments2
import Verif.Props.Dist.Cauchy
import Verif.Props.Traits

/-! Property C263: convolutions in rounded arithmetic, of any number of variables. -/
set_option linter.unusedSectionVars false
namespace Rstat
open F64 Spec

section
variable [FP] [FP.Lawful]

/-- accumulated rounding error of a left-to-right sum, relative to the sum of the absolute values -/
theorem fsum_abs {X : Type} (f : X → F64) (φ : X → ℝ) {n : ℕ} {A : ℝ} (hn : n ≤ 2 ^ 50) (hA0 : 0 ≤ A) (hA : A ≤ 2 ^ 900) (xs : List X) :
    ∀ (acc : F64) (k : ℕ) (y s : ℝ), k + xs.length ≤ n → (∀ x ∈ xs, (f x).Is (φ x)) → acc.Is y →
    |s| + (xs.map fun x => |φ x|).sum ≤ A → |y - s| ≤ k * (A / 2 ^ 52 + 2 * (1 / 2 ^ 1075)) →
    ∃ y', (xs.foldl (fun a x => a + f x) acc).Is y' ∧
      |y' - (s + (xs.map φ).sum)| ≤ (k + xs.length : ℕ) * (A / 2 ^ 52 + 2 * (1 / 2 ^ 1075)) := by
  induction xs with
  | nil => intro acc k y s _ _ hy _ he; exact ⟨y, hy, by simpa using he⟩
  | cons x xs ih =>
    intro acc k y s hk hx hy hs he
    simp only [List.map_cons, List.sum_cons, List.length_cons, List.foldl_cons] at *
    have hS : 0 ≤ (xs.map fun x => |φ x|).sum := List.sum_nonneg (by
      intro a ha; obtain ⟨b, -, rfl⟩ := List.mem_map.1 ha; exact abs_nonneg _)
    have hsx : |s + φ x| ≤ A := (abs_add_le _ _).trans (by linarith)
    have hkn : (k : ℝ) ≤ 2 ^ 50 := by exact_mod_cast (by omega : k ≤ 2 ^ 50)
    have hη1 : (1:ℝ) / 2 ^ 1075 ≤ 1 / 2 ^ 60 := one_div_le_one_div_of_le (by positivity) (pow_le_pow_right₀ (by norm_num) (by norm_num))
    have hη0 : (0:ℝ) < 1 / 2 ^ 1075 := by positivity
    have hM : (2:ℝ) ^ 900 * 4 ≤ 2 ^ 1000 := by
      rw [show (4:ℝ) = 2 ^ 2 by norm_num, ← pow_add]; exact pow_le_pow_right₀ (by norm_num) (by norm_num)
    have hM1 : (1:ℝ) ≤ 2 ^ 900 := one_le_pow₀ (by norm_num)
    have herr := FP.Lawful.rnd_err (y + φ x)
    have hnh := fun (t : ℝ) => nh_1000 (x := t)
    have he2 : |y + φ x - (s + φ x)| ≤ k * (A / 2 ^ 52 + 2 * (1 / 2 ^ 1075)) := by rw [add_sub_add_right_eq_sub]; exact he
    have hkE : k * (A / 2 ^ 52 + 2 * (1 / 2 ^ 1075)) ≤ A / 4 + 1 / 2 ^ 51 * (2 ^ 51 * (1 / 2 ^ 1075) ) * 2 ^ 51 := by
      have : k * (A / 2 ^ 52 + 2 * (1 / 2 ^ 1075)) ≤ 2 ^ 50 * (A / 2 ^ 52 + 2 * (1 / 2 ^ 1075)) :=
        mul_le_mul_of_nonneg_right hkn (by positivity)
      refine this.trans (le_of_eq ?_)
      generalize (1:ℝ) / 2 ^ 1075 = η at *
      ring
    generalize (1:ℝ) / 2 ^ 1075 = η at *
    generalize (2:ℝ) ^ 900 = M at *
    generalize (2:ℝ) ^ 1000 = M' at *
    have hyx : |y + φ x| ≤ 2 * A + 2 ^ 52 * η := by
      have h1 : |y + φ x| ≤ |s + φ x| + |y + φ x - (s + φ x)| := by
        have := abs_sub_abs_le_abs_sub (y + φ x) (s + φ x); linarith
      generalize |y + φ x - (s + φ x)| = e1 at *
      generalize |y + φ x| = e2 at *
      generalize |s + φ x| = e3 at *
      norm_num at *
      linarith
    have hadd := add_is hy (hx x (by simp)) (hnh _ (by
      generalize |y + φ x| = e2 at *
      norm_num at *
      linarith))
    obtain ⟨y', h1, h2⟩ := ih (acc + f x) (k + 1) _ (s + φ x) (by omega) (fun a ha => hx a (by simp [ha])) hadd
      (by have := abs_add_le s (φ x); linarith) (by
        have h3 : |FP.rnd (y + φ x) - (s + φ x)| ≤ |FP.rnd (y + φ x) - (y + φ x)| + |y + φ x - (s + φ x)| := abs_sub_le _ _ _
        generalize |y + φ x - (s + φ x)| = e1 at *
        generalize |y + φ x| = e2 at *
        generalize |FP.rnd (y + φ x) - (y + φ x)| = e3 at *
        generalize |FP.rnd (y + φ x) - (s + φ x)| = e4 at *
        push_cast
        have : ((k:ℝ) + 1) * (A / 2 ^ 52 + 2 * η) = k * (A / 2 ^ 52 + 2 * η) + (A / 2 ^ 52 + 2 * η) := by ring
        rw [this]
        generalize (k:ℝ) * (A / 2 ^ 52 + 2 * η) = K at *
        norm_num at *
        linarith)
    refine ⟨y', h1, ?_⟩
    rw [← add_assoc]
    refine h2.trans (le_of_eq ?_)
    push_cast; ring

/-- the same for a non-empty list, starting from its head -/
theorem fsum_cons {X : Type} (f : X → F64) (φ : X → ℝ) {A : ℝ} (hA : A ≤ 2 ^ 900) (x : X) (xs : List X) (hn : xs.length + 1 ≤ 2 ^ 50)
    (hx : ∀ a ∈ x :: xs, (f a).Is (φ a)) (hs : ((x :: xs).map fun a => |φ a|).sum ≤ A) :
    ∃ y, (xs.foldl (fun a b => a + f b) (f x)).Is y ∧
      |y - ((x :: xs).map φ).sum| ≤ xs.length * (A / 2 ^ 52 + 1 / 2 ^ 1074) := by
  have hS : 0 ≤ ((x :: xs).map fun a => |φ a|).sum := List.sum_nonneg (by
    intro a ha; obtain ⟨b, -, rfl⟩ := List.mem_map.1 ha; exact abs_nonneg _)
  obtain ⟨y, h1, h2⟩ := fsum_abs f φ (n := xs.length) (by omega) (hS.trans hs) hA xs (f x) 0 (φ x) (φ x) (by omega)
    (fun a ha => hx a (by simp [ha])) (hx x (by simp)) (by simpa using hs) (by simp)
  refine ⟨y, h1, ?_⟩
  rw [List.map_cons, List.sum_cons]
  refine h2.trans (le_of_eq ?_)
  rw [show (1:ℝ) / 2 ^ 1074 = 2 * (1 / 2 ^ 1075) by rw [pow_succ (2:ℝ) 1074]; field_simp]
  push_cast; ring

/-- the sum of positive values, relative error -/
theorem fsum_pos {X : Type} (f : X → F64) (φ : X → ℝ) {S : ℝ} (x : X) (xs : List X) (hn : xs.length + 1 ≤ 2 ^ 50)
    (hx : ∀ a ∈ x :: xs, (f a).Is (φ a) ∧ 0 < φ a) (hS : ((x :: xs).map φ).sum = S) (h1 : 1 / 2 ^ 900 ≤ S) (h2 : S ≤ 2 ^ 900) :
    ∃ y, (xs.foldl (fun a b => a + f b) (f x)).Is y ∧ |y - S| ≤ xs.length / 2 ^ 51 * S ∧ 0 < y := by
  have habs : ((x :: xs).map fun a => |φ a|).sum = S := by
    rw [← hS]; congr 1; exact List.map_congr_left fun a ha => abs_of_pos (hx a ha).2
  obtain ⟨y, y1, y2⟩ := fsum_cons f φ h2 x xs hn (fun a ha => (hx a ha).1) habs.le
  rw [hS] at y2
  have hη : (1:ℝ) / 2 ^ 1074 ≤ S / 2 ^ 52 := by
    rw [le_div_iff₀ (by positivity)]
    refine le_trans ?_ h1
    rw [one_div_mul_eq_div, div_le_div_iff₀ (by positivity) (by positivity), one_mul, ← pow_add]
    exact pow_le_pow_right₀ (by norm_num) (by norm_num)
  have hS0 : 0 < S := lt_of_lt_of_le (by positivity) h1
  have hb : |y - S| ≤ xs.length / 2 ^ 51 * S := by
    refine y2.trans ?_
    have : S / 2 ^ 52 + 1 / 2 ^ 1074 ≤ S / 2 ^ 51 := by
      have : S / 2 ^ 51 = S / 2 ^ 52 + S / 2 ^ 52 := by norm_num; ring
      rw [this]; linarith
    calc (xs.length : ℝ) * (S / 2 ^ 52 + 1 / 2 ^ 1074) ≤ xs.length * (S / 2 ^ 51) := by gcongr
      _ = _ := by ring
  refine ⟨y, y1, hb, ?_⟩
  have hl : (xs.length : ℝ) ≤ 2 ^ 50 := by exact_mod_cast (by omega : xs.length ≤ 2 ^ 50)
  have : (xs.length : ℝ) / 2 ^ 51 * S ≤ 2 ^ 50 / 2 ^ 51 * S := by gcongr
  rw [abs_le] at hb
  norm_num at this hb
  linarith [hb.1]

/-- what a user gets from convolving `d` with all of `es`: one after the other (`Spec.chain`, in the order given), or by `convolve_many` -/
def Spec.Convolved {D : Type} (conv : D → D → Except Err D) (d : D) (es : List D) (r : Except Err D) : Prop :=
  Spec.chain conv conv d es = some r ∨ 2 ≤ es.length ∧ convolveMany conv conv d es = r

theorem convolved_order {D : Type} {conv : D → D → Except Err D} {d : D} {es : List D} {r : Except Err D} (h : Spec.Convolved conv d es r) :
    ∃ order : List D, order.Perm es ∧ order.foldl (Spec.step conv) (.ok d) = r := by
  have hc : ∀ l r, Spec.chain conv conv d l = some r → l.foldl (Spec.step conv) (.ok d) = r := fun l r hl => by
    cases l with
    | nil => simp [Spec.chain] at hl
    | cons a l => simp only [Spec.chain, Option.some.injEq] at hl; exact hl
  rcases h with h | ⟨h2, h⟩
  · exact ⟨es, List.Perm.refl _, hc _ _ h⟩
  · obtain ⟨o, h1, h3⟩ := C25_convolve_many_partial conv conv d es h2
    exact ⟨o, h1, (hc _ _ h3).trans h⟩

theorem foldl_step {D : Type} (conv : D → D → Except Err D) (g : D → D → D) (hg : ∀ a b, conv a b = .ok (g a b)) (l : List D) :
    ∀ d, l.foldl (Spec.step conv) (.ok d) = .ok (l.foldl g d) := by
  induction l with
  | nil => intro d; rfl
  | cons a l ih => intro d; rw [List.foldl_cons, List.foldl_cons, ← ih]; congr 1; exact hg d a

theorem foldl_pair {D : Type} (f h : D → F64) (mk : F64 → F64 → D) (hf : ∀ a b, f (mk a b) = a) (hh : ∀ a b, h (mk a b) = b) (l : List D) :
    ∀ a b, l.foldl (fun x y => mk (f x + f y) (h x + h y)) (mk a b) = mk (l.foldl (fun x y => x + f y) a) (l.foldl (fun x y => x + h y) b) := by
  induction l with
  | nil => intro a b; rfl
  | cons e l ih => intro a b; simp only [List.foldl_cons, hf, hh]; exact ih _ _

theorem foldl_single {D : Type} (f : D → F64) (mk : F64 → D) (hf : ∀ a, f (mk a) = a) (l : List D) :
    ∀ a, l.foldl (fun x y => mk (f x + f y)) (mk a) = mk (l.foldl (fun x y => x + f y) a) := by
  induction l with
  | nil => intro a; rfl
  | cons e l ih => intro a; simp only [List.foldl_cons, hf]; exact ih _

/-- C263 normal: the convolution of any number of accepted normal laws, however it is formed, succeeds, is a law the constructor accepts,
its mean is right up to `n (Σ|μ| 2^-52 + 2^-1074)` and its variance up to a relative error of `n 2^-51`. -/
theorem C263_normal {d : UvNormal} {es : List UvNormal} {r : Except Err UvNormal} (hr : Spec.Convolved UvNormal.convolve d es r) (m v : UvNormal → ℝ)
    (hok : ∀ e ∈ d :: es, UvNormal.new e.mu e.Sigma = .ok e ∧ e.mu.Is (m e) ∧ e.Sigma.Is (v e)) (hn : es.length + 1 ≤ 2 ^ 50)
    (hm : ((d :: es).map fun e => |m e|).sum ≤ 2 ^ 900) (hv1 : 1 / 2 ^ 900 ≤ ((d :: es).map v).sum) (hv2 : ((d :: es).map v).sum ≤ 2 ^ 900) :
    ∃ f m' v', r = .ok f ∧ UvNormal.new f.mu f.Sigma = .ok f ∧ f.mean.Is m' ∧ f.variance.Is v' ∧
      |m' - ((d :: es).map m).sum| ≤ es.length * (((d :: es).map fun e => |m e|).sum / 2 ^ 52 + 1 / 2 ^ 1074) ∧
      |v' - ((d :: es).map v).sum| ≤ es.length / 2 ^ 51 * ((d :: es).map v).sum := by
  obtain ⟨o, hp, ho⟩ := convolved_order hr
  have hp' : (d :: o).Perm (d :: es) := hp.cons d
  rw [foldl_step UvNormal.convolve (fun x y => UvNormal.newUnchecked (x.mu + y.mu) (x.Sigma + y.Sigma)) (fun _ _ => rfl)] at ho
  have := foldl_pair UvNormalParams.mu UvNormalParams.Sigma UvNormal.newUnchecked (fun _ _ => rfl) (fun _ _ => rfl) o d.mu d.Sigma
  rw [show UvNormal.newUnchecked d.mu d.Sigma = d from rfl] at this
  rw [this] at ho
  have hok' : ∀ e ∈ d :: o, UvNormal.new e.mu e.Sigma = .ok e ∧ e.mu.Is (m e) ∧ e.Sigma.Is (v e) := fun e he => hok e (hp'.mem_iff.1 he)
  have hl := hp.length_eq
  obtain ⟨y, y1, y2⟩ := fsum_cons UvNormalParams.mu m hm d o (by omega) (fun a ha => (hok' a ha).2.1) (hp'.map _).sum_eq.le
  obtain ⟨z, z1, z2, z3⟩ := fsum_pos UvNormalParams.Sigma v d o (by omega)
    (fun a ha => ⟨(hok' a ha).2.2, pos_of_lt (UvNormal.new_ok.1 (hok' a ha).1).1 (hok' a ha).2.2⟩) (hp'.map v).sum_eq hv1 hv2
  rw [(hp'.map m).sum_eq, hl] at y2
  rw [hl] at z2
  exact ⟨_, y, z, ho.symm, UvNormal.new_ok.2 ⟨lt_of_pos z3 z1, rfl⟩, y1, z1, y2, z2⟩

/-- C263 Cauchy: the same for the location and the scale. -/
theorem C263_cauchy {d : Cauchy} {es : List Cauchy} {r : Except Err Cauchy} (hr : Spec.Convolved Cauchy.convolve d es r) (m v : Cauchy → ℝ)
    (hok : ∀ e ∈ d :: es, Cauchy.new e.x0 e.gamma = .ok e ∧ e.x0.Is (m e) ∧ e.gamma.Is (v e)) (hn : es.length + 1 ≤ 2 ^ 50)
    (hm : ((d :: es).map fun e => |m e|).sum ≤ 2 ^ 900) (hv1 : 1 / 2 ^ 900 ≤ ((d :: es).map v).sum) (hv2 : ((d :: es).map v).sum ≤ 2 ^ 900) :
    ∃ f m' v', r = .ok f ∧ Cauchy.new f.x0 f.gamma = .ok f ∧ f.x0.Is m' ∧ f.gamma.Is v' ∧
      |m' - ((d :: es).map m).sum| ≤ es.length * (((d :: es).map fun e => |m e|).sum / 2 ^ 52 + 1 / 2 ^ 1074) ∧
      |v' - ((d :: es).map v).sum| ≤ es.length / 2 ^ 51 * ((d :: es).map v).sum := by
  obtain ⟨o, hp, ho⟩ := convolved_order hr
  have hp' : (d :: o).Perm (d :: es) := hp.cons d
  rw [foldl_step Cauchy.convolve (fun x y => Cauchy.mk (x.x0 + y.x0) (x.gamma + y.gamma)) (fun _ _ => rfl)] at ho
  have := foldl_pair Cauchy.x0 Cauchy.gamma Cauchy.mk (fun _ _ => rfl) (fun _ _ => rfl) o d.x0 d.gamma
  rw [show Cauchy.mk d.x0 d.gamma = d from rfl] at this
  rw [this] at ho
  have hok' : ∀ e ∈ d :: o, Cauchy.new e.x0 e.gamma = .ok e ∧ e.x0.Is (m e) ∧ e.gamma.Is (v e) := fun e he => hok e (hp'.mem_iff.1 he)
  have hl := hp.length_eq
  obtain ⟨y, y1, y2⟩ := fsum_cons Cauchy.x0 m hm d o (by omega) (fun a ha => (hok' a ha).2.1) (hp'.map _).sum_eq.le
  obtain ⟨z, z1, z2, z3⟩ := fsum_pos Cauchy.gamma v d o (by omega)
    (fun a ha => ⟨(hok' a ha).2.2, pos_of_lt (Cauchy.new_ok.1 (hok' a ha).1).1 (hok' a ha).2.2⟩) (hp'.map v).sum_eq hv1 hv2
  rw [(hp'.map m).sum_eq, hl] at y2
  rw [hl] at z2
  exact ⟨_, y, z, ho.symm, Cauchy.new_ok.2 ⟨lt_of_pos z3 z1, rfl⟩, y1, z1, y2, z2⟩

/-- C263 Poisson: the rate of the sum of any number of accepted Poisson laws is right up to a relative error of `n 2^-51`, and is accepted. -/
theorem C263_poisson {d : Poisson} {es : List Poisson} {r : Except Err Poisson} (hr : Spec.Convolved Poisson.convolve d es r) (l : Poisson → ℝ)
    (hok : ∀ e ∈ d :: es, Poisson.new e.lambda = .ok e ∧ e.lambda.Is (l e)) (hn : es.length + 1 ≤ 2 ^ 50)
    (hv1 : 1 / 2 ^ 900 ≤ ((d :: es).map l).sum) (hv2 : ((d :: es).map l).sum ≤ 2 ^ 900) :
    ∃ f l', r = .ok f ∧ Poisson.new f.lambda = .ok f ∧ f.mean.Is l' ∧ f.variance.Is l' ∧
      |l' - ((d :: es).map l).sum| ≤ es.length / 2 ^ 51 * ((d :: es).map l).sum := by
  obtain ⟨o, hp, ho⟩ := convolved_order hr
  have hp' : (d :: o).Perm (d :: es) := hp.cons d
  rw [foldl_step Poisson.convolve (fun x y => Poisson.mk (x.lambda + y.lambda)) (fun _ _ => rfl)] at ho
  have := foldl_single Poisson.lambda Poisson.mk (fun _ => rfl) o d.lambda
  rw [show Poisson.mk d.lambda = d from rfl] at this
  rw [this] at ho
  have hok' : ∀ e ∈ d :: o, Poisson.new e.lambda = .ok e ∧ e.lambda.Is (l e) := fun e he => hok e (hp'.mem_iff.1 he)
  have hl := hp.length_eq
  obtain ⟨z, z1, z2, z3⟩ := fsum_pos Poisson.lambda l d o (by omega)
    (fun a ha => ⟨(hok' a ha).2, pos_of_lt (Poisson.new_ok.1 (hok' a ha).1).1 (hok' a ha).2⟩) (hp'.map l).sum_eq hv1 hv2
  rw [hl] at z2
  exact ⟨_, z, ho.symm, Poisson.new_ok.2 ⟨lt_of_pos z3 z1, rfl⟩, z1, z1, z2⟩

end

section
open B64
attribute [local instance] binary64 binary64_lawful

/-- C263 (violated) overflow: two accepted Poisson laws whose rates add up to 2^1024 or more are convolved into a law of infinite rate,
without an error. -/
theorem C263_poisson_overflow_violated {a b : F64} {l m : ℝ} {d e : Poisson} (h : Poisson.new a = .ok d) (h' : Poisson.new b = .ok e) (ha : a.Is l) (hb : b.Is m)
    (hlm : 2 ^ 1024 ≤ l + m) : ∃ f, d.convolve e = .ok f ∧ f.mean = pinf ∧ f.variance = pinf := by
  obtain ⟨-, rfl⟩ := Poisson.new_ok.1 h
  obtain ⟨-, rfl⟩ := Poisson.new_ok.1 h'
  have := pinf_of_ext ((add_ext ha hb).trans (by rw [round_pinf hlm]))
  exact ⟨_, rfl, this, this⟩

/-- C263 (violated) overflow: the same for the means of normal laws. -/
theorem C263_normal_overflow_violated {a s b t : F64} {l m : ℝ} {d e : UvNormal} (h : UvNormal.new a s = .ok d) (h' : UvNormal.new b t = .ok e)
    (ha : a.Is l) (hb : b.Is m) (hlm : 2 ^ 1024 ≤ l + m) : ∃ f, d.convolve e = .ok f ∧ f.mean = pinf := by
  obtain ⟨-, rfl⟩ := UvNormal.new_ok.1 h
  obtain ⟨-, rfl⟩ := UvNormal.new_ok.1 h'
  exact ⟨_, rfl, pinf_of_ext ((add_ext ha hb).trans (by rw [round_pinf hlm]))⟩

/-- C263 (violated) grouping: convolving a Poisson law of rate 2^n with two of rate 2^(n-53) gives different laws according to the grouping:
one at a time, both are lost. -/
theorem C263_poisson_grouping_violated {n : ℤ} (h1 : -900 ≤ n) (h2 : n ≤ 900) :
    ∃ d e f g : Poisson, Poisson.new (fin (2 ^ n)) = .ok d ∧ Poisson.new (fin (2 ^ (n - 53))) = .ok e ∧
      (d.convolve e).bind (fun x => x.convolve e) = .ok f ∧ (e.convolve e).bind (fun x => d.convolve x) = .ok g ∧
      f.mean.Is (2 ^ n) ∧ g.mean.Is (2 ^ n + 2 ^ (n - 52)) := by
  have p0 : (0:ℝ) < 2 ^ n := zpow_pos (by norm_num) _
  have p1 : (0:ℝ) < 2 ^ (n - 53) := zpow_pos (by norm_num) _
  have p2 : (0:ℝ) < 2 ^ (n - 52) := zpow_pos (by norm_num) _
  have e52 : (2:ℝ) ^ n = 2 ^ 52 * 2 ^ (n - 52) := by
    rw [← zpow_natCast (2:ℝ) 52, ← zpow_add₀ (by norm_num)]; congr 1; push_cast; ring
  have e53 : (2:ℝ) ^ (n - 52) = 2 * 2 ^ (n - 53) := by
    rw [← zpow_one_add₀ (by norm_num)]; congr 1; ring
  have big : (2:ℝ) ^ n + 2 ^ (n - 52) < 2 ^ 1024 := by
    have : (2:ℝ) ^ n ≤ 2 ^ (900:ℤ) := zpow_le_zpow_right₀ (by norm_num) h2
    have h3 : (2:ℝ) ^ (900:ℤ) * 4 ≤ 2 ^ 1024 := by
      rw [show (4:ℝ) = 2 ^ (2:ℤ) by norm_num, ← zpow_add₀ (by norm_num), ← zpow_natCast]
      exact zpow_le_zpow_right₀ (by norm_num) (by norm_num)
    have h4 : (2:ℝ) ^ (n - 52) ≤ 2 ^ n := zpow_le_zpow_right₀ (by norm_num) (by omega)
    generalize (2:ℝ) ^ (900:ℤ) = M at *
    generalize (2:ℝ) ^ 1024 = M' at *
    linarith
  -- one at a time: a tie, to even
  have t1 : rnd ((2:ℝ) ^ n + 2 ^ (n - 53)) = 2 ^ n := by
    rw [rnd_tie (2 ^ 52) (n - 52) (by omega) (by rw [show n - 52 + 52 = n by ring]; linarith)
      (by rw [show n - 52 + 53 = 1 + n by ring, zpow_one_add₀ (by norm_num)]; rw [e52] at p0 ⊢; rw [e53] at *; norm_num at *; linarith)
      (by rw [div_eq_iff p2.ne', e52, e53]; push_cast; ring), if_pos (by decide), e52]
    push_cast; ring
  have t2 : rnd ((2:ℝ) ^ (n - 53) + 2 ^ (n - 53)) = 2 ^ (n - 52) := by
    rw [← two_mul, ← e53]; exact rnd_two_pow (by omega)
  have t3 : rnd ((2:ℝ) ^ n + 2 ^ (n - 52)) = 2 ^ n + 2 ^ (n - 52) := by
    have := rnd_repr (2 ^ 52 + 1) (n - 52) (by norm_num) (by omega)
    rw [show (((2 ^ 52 + 1 : ℤ) : ℝ)) * 2 ^ (n - 52) = 2 ^ n + 2 ^ (n - 52) by rw [e52]; push_cast; ring] at this
    exact this
  have b0 : |(2:ℝ) ^ n| < 2 ^ 1024 := by rw [abs_of_pos p0]; linarith
  have a1 := add_val t1 b0 p0.ne'
  have a2 := add_val t2 (by rw [abs_of_pos p2]; exact lt_trans (by linarith) big) p2.ne'
  have a3 := add_val t3 (by rw [abs_of_pos (by positivity)]; exact big) (by positivity)
  refine ⟨⟨fin (2 ^ n)⟩, ⟨fin (2 ^ (n - 53))⟩, ⟨fin (2 ^ n) + fin (2 ^ (n - 53)) + fin (2 ^ (n - 53))⟩,
    ⟨fin (2 ^ n) + (fin (2 ^ (n - 53)) + fin (2 ^ (n - 53)))⟩, Poisson.new_ok.2 ⟨lt_of_pos p0 (Is.fin _), rfl⟩,
    Poisson.new_ok.2 ⟨lt_of_pos p1 (Is.fin _), rfl⟩, rfl, rfl, ?_, ?_⟩
  · show (fin (2 ^ n) + fin (2 ^ (n - 53)) + fin (2 ^ (n - 53))).Is _
    rw [a1, a1]; exact Is.fin _
  · show (fin (2 ^ n) + (fin (2 ^ (n - 53)) + fin (2 ^ (n - 53)))).Is _
    rw [a2, a3]; exact Is.fin _

/-- C263 (violated) absorption: adding an exponential variable to a Gamma law of the same rate and shape 2^n, n ≥ 60, gives back the same law. -/
theorem C263_gamma_absorbs_violated {n : ℕ} (hn : 60 ≤ n) (hn' : n ≤ 1000) {b : F64} {β : ℝ} (hb : b.Is β) (h0 : 0 < β) :
    ∃ d e, Gamma.new (fin (2 ^ n)) b = .ok d ∧ Exponential.new b = .ok e ∧ d.convolveExp e = .ok d := by
  have hb0 : (0 : F64) < b := lt_of_pos h0 hb
  refine ⟨⟨fin (2 ^ n), b⟩, ⟨b⟩, Gamma.new_ok.2 ⟨lt_of_pos (by positivity) (Is.fin _), hb0, rfl⟩, Exponential.new_ok.2 ⟨hb0, rfl⟩, ?_⟩
  have := (assertEqF_ok b b b).2 ⟨(hb.feq_iff hb).2 rfl, rfl⟩
  unfold Gamma.convolveExp
  simp only [this, exc_ok_bind, absorb_one n hn hn']
  rfl

/-- C263 (non-vacuity): three normal laws. -/
example : ∃ f m', convolveMany UvNormal.convolve UvNormal.convolve ⟨fin 1, fin 2⟩ [⟨fin (-3), fin 1⟩, ⟨fin 0, fin 5⟩] = .ok f ∧ f.mean.Is m' ∧ |m' + 2| ≤ 1 / 2 ^ 48 := by
  obtain ⟨f, m', v', h1, -, h3, -, h5, -⟩ := C263_normal (r := convolveMany UvNormal.convolve UvNormal.convolve ⟨fin 1, fin 2⟩ [⟨fin (-3), fin 1⟩, ⟨fin 0, fin 5⟩])
    (Or.inr ⟨by simp, rfl⟩) (fun e => e.mu.toReal) (fun e => e.Sigma.toReal) (by
      intro e he
      simp only [List.mem_cons, List.not_mem_nil, or_false] at he
      rcases he with rfl | rfl | rfl <;> exact ⟨UvNormal.new_ok.2 ⟨lt_of_pos (by norm_num) (Is.fin _), rfl⟩, Is.fin _, Is.fin _⟩)
    (by norm_num) (by
      simp only [List.map_cons, List.map_nil, List.sum_cons, List.sum_nil, F64.toReal]
      exact le_trans (by norm_num) (pow_le_pow_right₀ (by norm_num : (1:ℝ) ≤ 2) (by norm_num : 10 ≤ 900))) (by
      simp only [List.map_cons, List.map_nil, List.sum_cons, List.sum_nil, F64.toReal]
      exact le_trans (div_le_one_of_le₀ (one_le_pow₀ (by norm_num)) (by positivity)) (by norm_num)) (by
      simp only [List.map_cons, List.map_nil, List.sum_cons, List.sum_nil, F64.toReal]
      exact le_trans (by norm_num) (pow_le_pow_right₀ (by norm_num : (1:ℝ) ≤ 2) (by norm_num : 10 ≤ 900)))
  refine ⟨f, m', h1, h3, ?_⟩
  simp only [List.map_cons, List.map_nil, List.sum_cons, List.sum_nil, F64.toReal, List.length_cons, List.length_nil] at h5
  have hη : (1:ℝ) / 2 ^ 1074 ≤ 1 / 2 ^ 60 := one_div_le_one_div_of_le (by positivity) (pow_le_pow_right₀ (by norm_num) (by norm_num))
  generalize (1:ℝ) / 2 ^ 1074 = η at *
  norm_num [abs_of_pos, abs_of_neg] at h5 hη ⊢
  exact h5.trans (by linarith)
end
end Rstat
