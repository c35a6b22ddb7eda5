import Verif.Spec.Display
import Mathlib.Data.Set.Countable

/-! Unique readability of printed text. -/
namespace Rstat

/-- no punctuation inside -/
def Clean (t : Text) : Prop := ∀ c ∈ t, c ∉ punct
/-- nothing follows, or punctuation -/
def Stop (r : Text) : Prop := ∀ c ∈ r.head?, c ∈ punct
/-- nothing follows, or punctuation other than an opening bracket -/
def Close (r : Text) : Prop := ∀ c ∈ r.head?, c ∈ punct ∧ c ≠ '(' ∧ c ≠ '['

theorem Close.stop {r : Text} (h : Close r) : Stop r := fun c hc => (h c hc).1
theorem Close.nil : Close [] := by simp [Close]
theorem Stop.cons {c : Char} {r : Text} (h : c ∈ punct) : Stop (c :: r) := by simp [Stop, h]
theorem Close.cons {c : Char} {r : Text} (h : c ∈ punct ∧ c ≠ '(' ∧ c ≠ '[') : Close (c :: r) := by
  intro d hd; simp at hd; subst hd; exact h

theorem split_at : ∀ {a a' r r' : Text}, Clean a → Clean a' → Stop r → Stop r' → a ++ r = a' ++ r' → a = a' ∧ r = r'
  | [], [], _, _, _, _, _, _, h => ⟨rfl, h⟩
  | [], c :: a', r, r', _, h2, h3, _, h => by
    rw [List.nil_append] at h; subst h
    exact absurd (h3 c (by simp)) (h2 c (by simp))
  | c :: a, [], r, r', h1, _, _, h4, h => by
    rw [List.nil_append] at h; subst h
    exact absurd (h4 c (by simp)) (h1 c (by simp))
  | c :: a, c' :: a', r, r', h1, h2, h3, h4, h => by
    rw [List.cons_append, List.cons_append, List.cons.injEq] at h
    obtain ⟨rfl, h⟩ := h
    obtain ⟨rfl, rfl⟩ := split_at (fun d hd => h1 d (by simp [hd])) (fun d hd => h2 d (by simp [hd])) h3 h4 h
    exact ⟨rfl, rfl⟩

/-- `f` prints the values satisfying `P` uniquely readably, and never starts with `]` -/
structure Code {α : Type} (f : α → Text) (P : α → Prop) : Prop where
  read : ∀ x y r r', P x → P y → Close r → Close r' → f x ++ r = f y ++ r' → x = y ∧ r = r'
  head : ∀ x, P x → ∃ c t, f x = c :: t ∧ c ≠ ']'

theorem code_of_plain {α : Type} {f : α → Text} {P : α → Prop} (hp : ∀ x, P x → Plain (f x))
    (hi : ∀ x y, P x → P y → f x = f y → x = y) : Code f P where
  read x y r r' hx hy hr hr' h := by
    obtain ⟨h1, h2⟩ := split_at (hp x hx).2 (hp y hy).2 hr.stop hr'.stop h
    exact ⟨hi x y hx hy h1, h2⟩
  head x hx := by
    obtain ⟨h1, h2⟩ := hp x hx
    match hfx : f x with
    | [] => exact absurd hfx h1
    | c :: t =>
      refine ⟨c, t, rfl, fun hc => h2 c (by rw [hfx]; simp) ?_⟩
      rw [hc]; decide

theorem digitChar_clean {n : ℕ} (h : n < 10) : Nat.digitChar n ∉ punct ∧ Nat.digitChar n ≠ '-' := by
  interval_cases n <;> decide
theorem digitChar_inj {n m : ℕ} (hn : n < 10) (hm : m < 10) (h : Nat.digitChar n = Nat.digitChar m) : n = m := by
  interval_cases n <;> interval_cases m <;> first | rfl | exact absurd h (by decide)

theorem decN_plain (n : ℕ) : decN n ≠ [] ∧ ∀ c ∈ decN n, c ∉ punct ∧ c ≠ '-' := by
  induction n using Nat.strong_induction_on with
  | _ n ih =>
    rw [decN]
    split
    · rename_i h
      refine ⟨by simp, fun c hc => ?_⟩
      simp at hc; subst hc; exact digitChar_clean h
    · rename_i h
      refine ⟨by simp, fun c hc => ?_⟩
      rcases List.mem_append.1 hc with hc | hc
      · exact (ih _ (Nat.div_lt_self (by omega) (by decide))).2 c hc
      · simp at hc; subst hc; exact digitChar_clean (Nat.mod_lt _ (by decide))

theorem decN_inj : ∀ n m : ℕ, decN n = decN m → n = m := by
  intro n
  induction n using Nat.strong_induction_on with
  | _ n ih =>
    intro m h
    rw [decN.eq_def n, decN.eq_def m] at h
    by_cases hn : n < 10 <;> by_cases hm : m < 10 <;> simp only [hn, hm, if_true, if_false] at h
    · exact digitChar_inj hn hm (by simpa using h)
    · have := congrArg List.length h
      rw [List.length_append] at this
      have hne := (decN_plain (m / 10)).1
      have : (decN (m / 10)).length = 0 := by simpa using this
      exact absurd (List.length_eq_zero_iff.1 this) hne
    · have := congrArg List.length h
      rw [List.length_append] at this
      have hne := (decN_plain (n / 10)).1
      have : (decN (n / 10)).length = 0 := by simpa using this
      exact absurd (List.length_eq_zero_iff.1 this) hne
    · obtain ⟨h1, h2⟩ := List.append_inj' h rfl
      have e1 := ih _ (Nat.div_lt_self (by omega) (by decide)) _ h1
      have e2 := digitChar_inj (Nat.mod_lt n (by decide)) (Nat.mod_lt m (by decide)) (by simpa using h2)
      omega

theorem decI_plain (z : ℤ) : Plain (decI z) := by
  unfold decI
  obtain ⟨h1, h2⟩ := decN_plain z.natAbs
  split
  · refine ⟨by simp, fun c hc => ?_⟩
    rcases List.mem_cons.1 hc with rfl | hc
    · decide
    · exact (h2 c hc).1
  · exact ⟨h1, fun c hc => (h2 c hc).1⟩

theorem decI_inj (z w : ℤ) (h : decI z = decI w) : z = w := by
  unfold decI at h
  by_cases hz : z < 0 <;> by_cases hw : w < 0 <;> simp only [hz, hw, if_true, if_false] at h
  · have := decN_inj _ _ (by simpa using h); omega
  · exact absurd rfl ((decN_plain w.natAbs).2 '-' (by rw [← h]; simp)).2
  · exact absurd rfl ((decN_plain z.natAbs).2 '-' (by rw [h]; simp)).2
  · have := decN_inj _ _ h; omega

theorem decN_code : Code decN (fun _ => True) :=
  code_of_plain (fun n _ => ⟨(decN_plain n).1, fun c hc => ((decN_plain n).2 c hc).1⟩) (fun x y _ _ => decN_inj x y)
theorem decI_code : Code decI (fun _ => True) := code_of_plain (fun z _ => decI_plain z) (fun x y _ _ => decI_inj x y)

section
variable [NumFmt] [NumFmt.Lawful]
theorem dispF_code : Code NumFmt.dispF F64.Representable :=
  code_of_plain (fun x _ => NumFmt.Lawful.disp_plain x) NumFmt.Lawful.disp_inj
theorem dbgF_code : Code NumFmt.dbgF F64.Representable :=
  code_of_plain (fun x _ => NumFmt.Lawful.dbg_plain x) NumFmt.Lawful.dbg_inj
end

/-- comma-separated sequences up to a closing bracket -/
theorem commas_read {α : Type} {f : α → Text} {P : α → Prop} (hc : Code f P) :
    ∀ (l l' : List α) (r r' : Text), (∀ x ∈ l, P x) → (∀ x ∈ l', P x) →
      commas (l.map f) ++ ']' :: r = commas (l'.map f) ++ ']' :: r' → l = l' ∧ r = r'
  | [], [], r, r', _, _, h => by simpa [commas] using h
  | [], [x], r, r', _, h2, h => by
    obtain ⟨c, t, e, hne⟩ := hc.head x (h2 x (by simp))
    simp only [List.map, commas, e, List.nil_append, List.cons_append, List.cons.injEq] at h
    exact absurd h.1.symm hne
  | [], x :: y :: l, r, r', _, h2, h => by
    obtain ⟨c, t, e, hne⟩ := hc.head x (h2 x (by simp))
    simp only [List.map, commas, e, List.nil_append, List.cons_append, List.cons.injEq] at h
    exact absurd h.1.symm hne
  | [x], [], r, r', h1, _, h => by
    obtain ⟨c, t, e, hne⟩ := hc.head x (h1 x (by simp))
    simp only [List.map, commas, e, List.nil_append, List.cons_append, List.cons.injEq] at h
    exact absurd h.1 hne
  | x :: y :: l, [], r, r', h1, _, h => by
    obtain ⟨c, t, e, hne⟩ := hc.head x (h1 x (by simp))
    simp only [List.map, commas, e, List.nil_append, List.cons_append, List.cons.injEq] at h
    exact absurd h.1 hne
  | [x], [x'], r, r', h1, h2, h => by
    obtain ⟨e1, e2⟩ := hc.read x x' _ _ (h1 x (by simp)) (h2 x' (by simp)) (Close.cons (by decide)) (Close.cons (by decide)) h
    rw [e1]; exact ⟨rfl, by simpa using e2⟩
  | [x], x' :: y' :: l', r, r', h1, h2, h => by
    simp only [List.map, commas, List.append_assoc] at h
    obtain ⟨_, e2⟩ := hc.read x x' _ _ (h1 x (by simp)) (h2 x' (by simp)) (Close.cons (by decide)) (Close.cons (by decide)) h
    exact absurd (List.cons.inj e2).1 (by decide)
  | x :: y :: l, [x'], r, r', h1, h2, h => by
    simp only [List.map, commas, List.append_assoc] at h
    obtain ⟨_, e2⟩ := hc.read x x' _ _ (h1 x (by simp)) (h2 x' (by simp)) (Close.cons (by decide)) (Close.cons (by decide)) h
    exact absurd (List.cons.inj e2).1 (by decide)
  | x :: y :: l, x' :: y' :: l', r, r', h1, h2, h => by
    simp only [List.map, commas, List.append_assoc] at h
    obtain ⟨e1, e2⟩ := hc.read x x' _ _ (h1 x (by simp)) (h2 x' (by simp)) (Close.cons (by decide)) (Close.cons (by decide)) h
    have e3 := List.append_cancel_left (as := txt ", ") e2
    obtain ⟨e4, e5⟩ := commas_read hc (y :: l) (y' :: l') r r' (fun z hz => h1 z (by simp [hz])) (fun z hz => h2 z (by simp [hz]))
      (by simpa only [List.map] using e3)
    exact ⟨by rw [e1, e4], e5⟩

theorem dbgList_code {α : Type} {f : α → Text} {P : α → Prop} (hc : Code f P) :
    Code (fun l : List α => dbgList (l.map f)) (fun l => ∀ x ∈ l, P x) where
  read l l' r r' hl hl' _ _ h := by
    simp only [dbgList, List.append_assoc] at h
    have h := List.append_cancel_left h
    exact commas_read hc l l' r r' hl hl' h
  head l _ := ⟨'[', _, rfl, by decide⟩

/-- `Code` restricted to whole texts -/
theorem Code.inj {α : Type} {f : α → Text} {P : α → Prop} (hc : Code f P) {x y : α} (hx : P x) (hy : P y) (h : f x = f y) : x = y :=
  (hc.read x y [] [] hx hy Close.nil Close.nil (by rw [h])).1

theorem Code.mono {α : Type} {f : α → Text} {P Q : α → Prop} (hc : Code f P) (h : ∀ x, Q x → P x) : Code f Q where
  read x y r r' hx hy := hc.read x y r r' (h x hx) (h y hy)
  head x hx := hc.head x (h x hx)

/-- the values of every type are uniquely readable -/
theorem Ty.dbg_code [NumFmt] [NumFmt.Lawful] : ∀ t : Ty, Code (Ty.dbg t) (Ty.Rep t)
  | .sc .f64 => dbgF_code
  | .sc .i64 => decI_code
  | .sc .usize => decN_code
  | .vec t => dbgList_code (Ty.dbg_code t)
  | .arr n t =>
    have h := dbgList_code (Ty.dbg_code t)
    { read := fun x y r r' hx hy hr hr' e => by
        obtain ⟨e1, e2⟩ := h.read (List.ofFn x) (List.ofFn y) r r' (fun a ha => by obtain ⟨i, rfl⟩ := List.mem_ofFn.1 ha; exact hx i)
          (fun a ha => by obtain ⟨i, rfl⟩ := List.mem_ofFn.1 ha; exact hy i) hr hr' e
        exact ⟨List.ofFn_injective e1, e2⟩
      head := fun x _ => ⟨'[', _, rfl, by decide⟩ }

/-! ### Names and fixed arguments -/

/-- calls with number arguments: name and printed arguments can be recovered -/
theorem call_read {n n' : String} {as as' : List Text} (hn : Clean n.toList) (hn' : Clean n'.toList)
    (ha : ∀ a ∈ as, Plain a) (ha' : ∀ a ∈ as', Plain a) (h : call n as = call n' as') : n = n' ∧ as = as' := by
  unfold call txt at h
  simp only [List.append_assoc] at h
  obtain ⟨e1, e2⟩ := split_at hn hn' (Stop.cons (by decide)) (Stop.cons (by decide)) h
  have e3 : commas as ++ ")".toList = commas as' ++ ")".toList := List.append_cancel_left (as := "(".toList) e2
  have e4 := List.append_cancel_right e3
  have hc : Code (fun a : Text => a) Plain := code_of_plain (fun _ h => h) (fun _ _ _ _ h => h)
  have e5 := commas_read hc as as' [] [] ha ha' (by simp only [List.map_id']; rw [e4])
  exact ⟨String.toList_injective e1, e5.1⟩

/-! ### Constraint texts as trees -/

/-- shape of a printed constraint -/
inductive Tree where
  | atom (name : Text)
  | app (name arg : Text)
  | ival (a b : Text)
  | un (name : Text) (t : Tree)
  | bin (name : Text) (t1 t2 : Tree)

namespace Tree
def print : Tree → Text
  | atom n => n
  | app n a => n ++ '(' :: (a ++ [')'])
  | ival a b => '[' :: (a ++ ',' :: ' ' :: (b ++ [']']))
  | un n t => n ++ '(' :: (print t ++ [')'])
  | bin n t1 t2 => n ++ '(' :: (print t1 ++ ' ' :: '|' :: '|' :: ' ' :: (print t2 ++ [')']))

def Un (n : Text) : Prop := n = txt "All" ∨ n = txt "Not"
def Bin (n : Text) : Prop := n = txt "Or" ∨ n = txt "And"
def Ok : Tree → Prop
  | atom n => Plain n
  | app n a => Plain n ∧ Plain a ∧ ¬ Un n ∧ ¬ Bin n
  | ival a b => Plain a ∧ Plain b
  | un n t => Un n ∧ Ok t
  | bin n t1 t2 => Bin n ∧ Ok t1 ∧ Ok t2

theorem Un.plain {n : Text} (h : Un n) : Plain n := by rcases h with rfl | rfl <;> exact ⟨by decide, by decide⟩
theorem Bin.plain {n : Text} (h : Bin n) : Plain n := by rcases h with rfl | rfl <;> exact ⟨by decide, by decide⟩
theorem Un.notBin {n : Text} (h : Un n) : ¬ Bin n := by rcases h with rfl | rfl <;> unfold Bin <;> decide

theorem sp {a a' r r' : Text} (h1 : Plain a) (h2 : Plain a') (hr : Stop r) (hr' : Stop r') (h : a ++ r = a' ++ r') : a = a' ∧ r = r' :=
  split_at h1.2 h2.2 hr hr' h
theorem stop_paren {r : Text} : Stop ('(' :: r) := Stop.cons (by decide)
theorem close_par {r : Text} : Close (')' :: r) := Close.cons (by decide)
theorem close_br {r : Text} : Close (']' :: r) := Close.cons (by decide)
theorem close_comma {r : Text} : Close (',' :: r) := Close.cons (by decide)
theorem close_sp {r : Text} : Close (' ' :: r) := Close.cons (by decide)
theorem paren_not_close {r x : Text} (h : Close r) (e : r = '(' :: x) : False := by
  subst e; exact (h '(' (by simp)).2.1 rfl

/-- what starts with a name does not start with `[` -/
theorem name_ne_br {n x y : Text} (h : Plain n) (e : n ++ x = '[' :: y) : False := by
  obtain ⟨h1, h2⟩ := h
  match n, h1, h2, e with
  | c :: n, _, h2, e =>
    rw [List.cons_append, List.cons.injEq] at e
    exact h2 c (by simp) (by rw [e.1]; decide)

theorem read : ∀ (t t' : Tree) (r r' : Text), Ok t → Ok t' → Close r → Close r' → print t ++ r = print t' ++ r' → t = t' ∧ r = r' := by
  intro t
  induction t with
  | atom n =>
    intro t' r r' h h' hr hr' e
    cases t' with
    | atom n' => obtain ⟨rfl, rfl⟩ := sp h h' hr.stop hr'.stop e; exact ⟨rfl, rfl⟩
    | app n' a' =>
      simp only [print, List.append_assoc, List.cons_append] at e
      obtain ⟨_, e1⟩ := sp h h'.1 hr.stop stop_paren e; exact (paren_not_close hr e1).elim
    | ival a' b' => simp only [print, List.cons_append] at e; exact (name_ne_br h e).elim
    | un n' t' =>
      simp only [print, List.append_assoc, List.cons_append] at e
      obtain ⟨_, e2⟩ := sp h h'.1.plain hr.stop stop_paren e; exact (paren_not_close hr e2).elim
    | bin n' t1 t2 =>
      simp only [print, List.append_assoc, List.cons_append] at e
      obtain ⟨_, e3⟩ := sp h h'.1.plain hr.stop stop_paren e; exact (paren_not_close hr e3).elim
  | app n a =>
    intro t' r r' h h' hr hr' e
    cases t' with
    | atom n' =>
      simp only [print, List.append_assoc, List.cons_append] at e
      obtain ⟨_, e4⟩ := sp h.1 h' stop_paren hr'.stop e; exact (paren_not_close hr' e4.symm).elim
    | app n' a' =>
      simp only [print, List.append_assoc, List.cons_append, List.nil_append] at e
      obtain ⟨rfl, e5⟩ := sp h.1 h'.1 stop_paren stop_paren e
      obtain ⟨rfl, e6⟩ := sp h.2.1 h'.2.1 close_par.stop close_par.stop (List.cons.inj e5).2
      exact ⟨rfl, (List.cons.inj e6).2⟩
    | ival a' b' => simp only [print, List.append_assoc, List.cons_append] at e; exact (name_ne_br h.1 e).elim
    | un n' t' =>
      simp only [print, List.append_assoc, List.cons_append] at e
      obtain ⟨rfl, e7⟩ := sp h.1 h'.1.plain stop_paren stop_paren e; exact absurd h'.1 h.2.2.1
    | bin n' t1 t2 =>
      simp only [print, List.append_assoc, List.cons_append] at e
      obtain ⟨rfl, e8⟩ := sp h.1 h'.1.plain stop_paren stop_paren e; exact absurd h'.1 h.2.2.2
  | ival a b =>
    intro t' r r' h h' hr hr' e
    cases t' with
    | atom n' => simp only [print, List.cons_append] at e; exact (name_ne_br h' e.symm).elim
    | app n' a' => simp only [print, List.append_assoc, List.cons_append] at e; exact (name_ne_br h'.1 e.symm).elim
    | ival a' b' =>
      simp only [print, List.append_assoc, List.cons_append, List.nil_append, List.cons.injEq, true_and] at e
      obtain ⟨rfl, e9⟩ := sp h.1 h'.1 close_comma.stop close_comma.stop e
      obtain ⟨rfl, e10⟩ := sp h.2 h'.2 close_br.stop close_br.stop (List.cons.inj (List.cons.inj e9).2).2
      exact ⟨rfl, (List.cons.inj e10).2⟩
    | un n' t' => simp only [print, List.append_assoc, List.cons_append] at e; exact (name_ne_br h'.1.plain e.symm).elim
    | bin n' t1 t2 => simp only [print, List.append_assoc, List.cons_append] at e; exact (name_ne_br h'.1.plain e.symm).elim
  | un n t ih =>
    intro t' r r' h h' hr hr' e
    cases t' with
    | atom n' =>
      simp only [print, List.append_assoc, List.cons_append] at e
      obtain ⟨_, e11⟩ := sp h.1.plain h' stop_paren hr'.stop e; exact (paren_not_close hr' e11.symm).elim
    | app n' a' =>
      simp only [print, List.append_assoc, List.cons_append] at e
      obtain ⟨rfl, e12⟩ := sp h.1.plain h'.1 stop_paren stop_paren e; exact absurd h.1 h'.2.2.1
    | ival a' b' => simp only [print, List.append_assoc, List.cons_append] at e; exact (name_ne_br h.1.plain e).elim
    | un n' t' =>
      simp only [print, List.append_assoc, List.cons_append, List.nil_append] at e
      obtain ⟨rfl, e13⟩ := sp h.1.plain h'.1.plain stop_paren stop_paren e
      obtain ⟨rfl, e14⟩ := ih t' _ _ h.2 h'.2 close_par close_par (List.cons.inj e13).2
      exact ⟨rfl, (List.cons.inj e14).2⟩
    | bin n' t1 t2 =>
      simp only [print, List.append_assoc, List.cons_append] at e
      obtain ⟨rfl, e15⟩ := sp h.1.plain h'.1.plain stop_paren stop_paren e; exact absurd h'.1 h.1.notBin
  | bin n t1 t2 ih1 ih2 =>
    intro t' r r' h h' hr hr' e
    cases t' with
    | atom n' =>
      simp only [print, List.append_assoc, List.cons_append] at e
      obtain ⟨_, e16⟩ := sp h.1.plain h' stop_paren hr'.stop e; exact (paren_not_close hr' e16.symm).elim
    | app n' a' =>
      simp only [print, List.append_assoc, List.cons_append] at e
      obtain ⟨rfl, e17⟩ := sp h.1.plain h'.1 stop_paren stop_paren e; exact absurd h.1 h'.2.2.2
    | ival a' b' => simp only [print, List.append_assoc, List.cons_append] at e; exact (name_ne_br h.1.plain e).elim
    | un n' t' =>
      simp only [print, List.append_assoc, List.cons_append] at e
      obtain ⟨rfl, e18⟩ := sp h.1.plain h'.1.plain stop_paren stop_paren e; exact absurd h.1 h'.1.notBin
    | bin n' t1' t2' =>
      simp only [print, List.append_assoc, List.cons_append, List.nil_append] at e
      obtain ⟨rfl, e19⟩ := sp h.1.plain h'.1.plain stop_paren stop_paren e
      obtain ⟨rfl, e20⟩ := ih1 t1' _ _ h.2.1 h'.2.1 close_sp close_sp (List.cons.inj e19).2
      simp only [List.cons.injEq, true_and] at e20
      obtain ⟨rfl, e21⟩ := ih2 t2' _ _ h.2.2 h'.2.2 close_par close_par e20
      exact ⟨rfl, (List.cons.inj e21).2⟩

end Tree

section
variable [NumFmt]
/-- the tree behind the text of a constraint -/
def Cst.tree : {t : Ty} → Cst t → Tree
  | _, @Cst.equal s b => .app (txt "Equal") ((Ty.sc s).dbg b)
  | _, @Cst.lessThan s b => .app (txt "LessThan") ((Ty.sc s).dbg b)
  | _, .negative => .atom (txt "Negative")
  | _, @Cst.lessThanOrEqual s b => .app (txt "LessThanOrEqual") ((Ty.sc s).dbg b)
  | _, .nonPositive => .atom (txt "NonPositive")
  | _, @Cst.greaterThan s b => .app (txt "GreaterThan") ((Ty.sc s).dbg b)
  | _, .positive => .atom (txt "Positive")
  | _, @Cst.greaterThanOrEqual s b => .app (txt "GreaterThanOrEqual") ((Ty.sc s).dbg b)
  | _, @Cst.interval s lb ub => .ival ((Ty.sc s).dbg lb) ((Ty.sc s).dbg ub)
  | _, .nonNegative => .atom (txt "NonNegative")
  | _, .naturalI => .atom (txt "Natural")
  | _, .naturalU => .atom (txt "Natural")
  | _, .not c => .un (txt "Not") c.tree
  | _, .or c1 c2 => .bin (txt "Or") c1.tree c2.tree
  | _, .and c1 c2 => .bin (txt "And") c1.tree c2.tree
  | _, .box c => c.tree
  | _, .allSc c => .un (txt "All") c.tree
  | _, .allVec c => .un (txt "All") c.tree
  | _, .allArr c => .un (txt "All") c.tree
  | _, .emptyArr => .atom (txt "Empty")
  | _, .emptyVec => .atom (txt "Empty")
  | _, .square => .atom (txt "Square")

theorem call_one (n : String) (a : Text) : call n [a] = txt n ++ '(' :: (a ++ [')']) := by
  have h1 : txt "(" = ['('] := by decide
  have h2 : txt ")" = [')'] := by decide
  unfold call
  rw [h1, h2]; simp only [commas, List.append_assoc, List.cons_append, List.nil_append]

theorem Cst.fmt_eq {t : Ty} (c : Cst t) : c.fmt = c.tree.print := by
  have hb : txt " || " = [' ', '|', '|', ' '] := by decide
  have h1 : txt "[" = ['['] := by decide
  have h2 : txt "]" = [']'] := by decide
  have h3 : txt ", " = [',', ' '] := by decide
  induction c
  case interval => 
    simp only [Cst.fmt, Cst.tree, Tree.print, commas]
    rw [h1, h2, h3]; simp only [List.append_assoc, List.cons_append, List.nil_append]
  case or c1 c2 i1 i2 =>
    simp only [Cst.fmt, Cst.tree, Tree.print, call_one]
    rw [i1, i2, hb]; simp only [List.append_assoc, List.cons_append, List.nil_append]
  case and c1 c2 i1 i2 =>
    simp only [Cst.fmt, Cst.tree, Tree.print, call_one]
    rw [i1, i2, hb]; simp only [List.append_assoc, List.cons_append, List.nil_append]
  case not c ih => simp only [Cst.fmt, Cst.tree, Tree.print, call_one]; rw [ih]
  case allSc c ih => simp only [Cst.fmt, Cst.tree, Tree.print, call_one]; rw [ih]
  case allVec c ih => simp only [Cst.fmt, Cst.tree, Tree.print, call_one]; rw [ih]
  case allArr c ih => simp only [Cst.fmt, Cst.tree, Tree.print, call_one]; rw [ih]
  case box c ih => simp only [Cst.fmt, Cst.tree]; rw [ih]
  all_goals simp only [Cst.fmt, Cst.tree, Tree.print, call_one]

theorem Ty.sc_dbg_plain [NumFmt.Lawful] (s : Sc) (b : (Ty.sc s).Val) : Plain ((Ty.sc s).dbg b) := by
  cases s
  · exact NumFmt.Lawful.dbg_plain b
  · exact decI_plain b
  · exact ⟨(decN_plain b).1, fun c hc => ((decN_plain b).2 c hc).1⟩

theorem Cst.tree_ok [NumFmt.Lawful] {t : Ty} (c : Cst t) : c.tree.Ok := by
  induction c
  case equal s b => exact ⟨⟨by decide, by decide⟩, Ty.sc_dbg_plain s b, by unfold Tree.Un; decide, by unfold Tree.Bin; decide⟩
  case lessThan s b => exact ⟨⟨by decide, by decide⟩, Ty.sc_dbg_plain s b, by unfold Tree.Un; decide, by unfold Tree.Bin; decide⟩
  case lessThanOrEqual s b => exact ⟨⟨by decide, by decide⟩, Ty.sc_dbg_plain s b, by unfold Tree.Un; decide, by unfold Tree.Bin; decide⟩
  case greaterThan s b => exact ⟨⟨by decide, by decide⟩, Ty.sc_dbg_plain s b, by unfold Tree.Un; decide, by unfold Tree.Bin; decide⟩
  case greaterThanOrEqual s b => exact ⟨⟨by decide, by decide⟩, Ty.sc_dbg_plain s b, by unfold Tree.Un; decide, by unfold Tree.Bin; decide⟩
  case interval s a b => exact ⟨Ty.sc_dbg_plain s a, Ty.sc_dbg_plain s b⟩
  case not c ih => exact ⟨.inr rfl, ih⟩
  case allSc c ih => exact ⟨.inl rfl, ih⟩
  case allVec c ih => exact ⟨.inl rfl, ih⟩
  case allArr c ih => exact ⟨.inl rfl, ih⟩
  case or c1 c2 h1 h2 => exact ⟨.inl rfl, h1, h2⟩
  case and c1 c2 h1 h2 => exact ⟨.inr rfl, h1, h2⟩
  case box c ih => exact ih
  all_goals exact ⟨by decide, by decide⟩

open Classical in
/-- read a printed scalar back -/
noncomputable def Sc.parse (s : Sc) (a : Text) : (Ty.sc s).Val :=
  if h : ∃ v : (Ty.sc s).Val, (Ty.sc s).Rep v ∧ (Ty.sc s).dbg v = a then h.choose else s.zero

theorem Sc.parse_dbg [NumFmt.Lawful] {s : Sc} {b : (Ty.sc s).Val} (hb : (Ty.sc s).Rep b) : s.parse ((Ty.sc s).dbg b) = b := by
  have h : ∃ v : (Ty.sc s).Val, (Ty.sc s).Rep v ∧ (Ty.sc s).dbg v = (Ty.sc s).dbg b := ⟨b, hb, rfl⟩
  unfold Sc.parse
  rw [dif_pos h]
  exact (Ty.dbg_code (.sc s)).inj h.choose_spec.1 hb h.choose_spec.2

open Classical in
/-- which values the constraint behind a tree accepts -/
noncomputable def Tree.interp : Tree → (t : Ty) → t.Val → Bool
  | .atom n, .sc s, v =>
    if n = txt "Negative" then decide (s.lt v s.zero)
    else if n = txt "NonPositive" then decide (s.le v s.zero)
    else if n = txt "NonNegative" then decide (s.le s.zero v)
    else decide (s.lt s.zero v)
  | .atom _, .vec t, v => decide (List.length (α := t.Val) v = 0)
  | .atom n, .arr m _, _ => if n = txt "Square" then true else decide (m > 0)
  | .app n a, .sc s, v =>
    if n = txt "Equal" then decide (s.eq v (s.parse a))
    else if n = txt "LessThan" then decide (s.lt v (s.parse a))
    else if n = txt "LessThanOrEqual" then decide (s.le v (s.parse a))
    else if n = txt "GreaterThan" then decide (s.lt (s.parse a) v)
    else decide (s.le (s.parse a) v)
  | .app _ _, _, _ => true
  | .ival a b, .sc s, v => decide (s.le (s.parse a) v) && decide (s.le v (s.parse b))
  | .ival _ _, _, _ => true
  | .un n t, .sc s, v => if n = txt "Not" then !(interp t (.sc s) v) else interp t (.sc s) v
  | .un n t, .vec ty, v => if n = txt "Not" then !(interp t (.vec ty) v) else List.all (α := ty.Val) v (fun x => interp t ty x)
  | .un n t, .arr m ty, v =>
    if n = txt "Not" then !(interp t (.arr m ty) v) else (List.finRange m).all (fun i => interp t ty (v i))
  | .bin n t1 t2, ty, v => if n = txt "Or" then interp t1 ty v || interp t2 ty v else interp t1 ty v && interp t2 ty v

theorem Tree.interp_tree [NumFmt.Lawful] {t : Ty} (c : Cst t) (hc : c.Rep) : ∀ v, c.tree.interp t v = c.sat v := by
  induction c <;> intro v
  case equal s b =>
    simp only [Cst.tree, Tree.interp, Cst.sat]
    rw [if_pos (by decide), Sc.parse_dbg hc]
  case lessThan s b =>
    simp only [Cst.tree, Tree.interp, Cst.sat]
    rw [if_neg (by decide), if_pos (by decide), Sc.parse_dbg hc]
  case lessThanOrEqual s b =>
    simp only [Cst.tree, Tree.interp, Cst.sat]
    rw [if_neg (by decide), if_neg (by decide), if_pos (by decide), Sc.parse_dbg hc]
  case greaterThan s b =>
    simp only [Cst.tree, Tree.interp, Cst.sat]
    rw [if_neg (by decide), if_neg (by decide), if_neg (by decide), if_pos (by decide), Sc.parse_dbg hc]
  case greaterThanOrEqual s b =>
    simp only [Cst.tree, Tree.interp, Cst.sat]
    rw [if_neg (by decide), if_neg (by decide), if_neg (by decide), if_neg (by decide), Sc.parse_dbg hc]
  case interval s a b =>
    simp only [Cst.tree, Tree.interp, Cst.sat]
    rw [Sc.parse_dbg hc.1, Sc.parse_dbg hc.2]
  case negative => simp only [Cst.tree, Tree.interp, Cst.sat]; rw [if_pos (by decide)]
  case nonPositive => simp only [Cst.tree, Tree.interp, Cst.sat]; rw [if_neg (by decide), if_pos (by decide)]
  case nonNegative =>
    simp only [Cst.tree, Tree.interp, Cst.sat]; rw [if_neg (by decide), if_neg (by decide), if_pos (by decide)]
  case positive =>
    simp only [Cst.tree, Tree.interp, Cst.sat]; rw [if_neg (by decide), if_neg (by decide), if_neg (by decide)]
  case naturalI =>
    simp only [Cst.tree, Tree.interp, Cst.sat]; rw [if_neg (by decide), if_neg (by decide), if_neg (by decide)]
  case naturalU =>
    simp only [Cst.tree, Tree.interp, Cst.sat]; rw [if_neg (by decide), if_neg (by decide), if_neg (by decide)]
  case not t c ih =>
    cases t <;> (simp only [Cst.tree, Tree.interp, Cst.sat]; rw [if_pos trivial, ih hc])
  case or t c1 c2 i1 i2 =>
    simp only [Cst.tree, Tree.interp, Cst.sat]; rw [if_pos trivial, i1 hc.1, i2 hc.2]
  case and t c1 c2 i1 i2 =>
    simp only [Cst.tree, Tree.interp, Cst.sat]; rw [if_neg (by decide), i1 hc.1, i2 hc.2]
  case box t c ih => simp only [Cst.tree, Cst.sat]; exact ih hc v
  case allSc s c ih => simp only [Cst.tree, Tree.interp, Cst.sat]; rw [if_neg (by decide), ih hc]
  case allVec t c ih =>
    simp only [Cst.tree, Tree.interp, Cst.sat]; rw [if_neg (by decide)]
    exact congrArg (fun f => List.all (α := t.Val) v f) (funext (ih hc))
  case allArr t n c ih =>
    simp only [Cst.tree, Tree.interp, Cst.sat]; rw [if_neg (by decide)]
    exact congrArg (fun f => List.all (List.finRange n) f) (funext fun i => ih hc (v i))
  case emptyArr => simp only [Cst.tree, Tree.interp, Cst.sat]; rw [if_neg (by decide)]
  case emptyVec => simp only [Cst.tree, Tree.interp, Cst.sat]
  case square => simp only [Cst.tree, Tree.interp, Cst.sat]; rw [if_pos trivial]
end

/-! ### Families -/
/-- which parameters are integers -/
def Family.kinds : Family → List Bool
  | .bernoulli => [false]
  | .beta => [false, false]
  | .betaBinomial => [true, false, false]
  | .betaPrime => [false, false]
  | .binomial => [true, false]
  | .cauchy => [false, false]
  | .chi => [true]
  | .chiSq => [true]
  | .cosine => [false, false]
  | .erlang => [true, false]
  | .exponential => [false]
  | .fDist => [true, true]
  | .frechet => [false]
  | .gamma => [false, false]
  | .geometric => [false]
  | .gev => [false, false, false]
  | .gpd => [false, false, false]
  | .gumbel => [false, false]
  | .invGamma => [false, false]
  | .invNormal => [false, false]
  | .kumaraswamy => [false, false]
  | .laplace => [false, false]
  | .levy => [false, false]
  | .logistic => [false, false]
  | .pareto => [false, false]
  | .poisson => [false]
  | .rayleigh => [false]
  | .studentT => [false]
  | .uvNormal => [false, false]
  | .weibull => [false, false]
/-- inverse of `name` -/
def Family.ofName (s : String) : Option Family :=
  if s = "Ber" then some .bernoulli else
  if s = "Beta" then some .beta else
  if s = "BB" then some .betaBinomial else
  if s = "BetaPrime" then some .betaPrime else
  if s = "Bin" then some .binomial else
  if s = "Cauchy" then some .cauchy else
  if s = "Chi" then some .chi else
  if s = "ChiSq" then some .chiSq else
  if s = "Cosine" then some .cosine else
  if s = "Erlang" then some .erlang else
  if s = "Exp" then some .exponential else
  if s = "F" then some .fDist else
  if s = "Frechet" then some .frechet else
  if s = "Gamma" then some .gamma else
  if s = "Geometric" then some .geometric else
  if s = "GEV" then some .gev else
  if s = "GPD" then some .gpd else
  if s = "Gumbel" then some .gumbel else
  if s = "Inv-Gamma" then some .invGamma else
  if s = "IG" then some .invNormal else
  if s = "Kumaraswamy" then some .kumaraswamy else
  if s = "Laplace" then some .laplace else
  if s = "Levy" then some .levy else
  if s = "Logistic" then some .logistic else
  if s = "Pareto" then some .pareto else
  if s = "Poi" then some .poisson else
  if s = "Rayleigh" then some .rayleigh else
  if s = "StudentT" then some .studentT else
  if s = "N" then some .uvNormal else
  if s = "Weibull" then some .weibull else
  none

theorem Family.ofName_name (f : Family) : Family.ofName f.name = some f := by cases f <;> simp [Family.name, Family.ofName]
theorem Family.name_inj {f g : Family} (h : f.name = g.name) : f = g := by
  have := congrArg Family.ofName h
  rw [Family.ofName_name, Family.ofName_name] at this
  exact Option.some.inj this

def Num.isInt : Num → Bool
  | .f _ => false
  | .n _ => true

theorem Num.shown_plain [NumFmt] [NumFmt.Lawful] (a : Num) : Plain a.shown := by
  cases a
  · exact NumFmt.Lawful.disp_plain _
  · exact ⟨(decN_plain _).1, fun c hc => ((decN_plain _).2 c hc).1⟩

theorem Num.shown_inj [NumFmt] [NumFmt.Lawful] : ∀ (as bs : List Num), (∀ a ∈ as, a.Ok) → (∀ b ∈ bs, b.Ok) →
    as.map Num.isInt = bs.map Num.isInt → as.map Num.shown = bs.map Num.shown → as = bs
  | [], [], _, _, _, _ => rfl
  | [], b :: bs, _, _, h, _ => by cases h
  | a :: as, [], _, _, h, _ => by cases h
  | a :: as, b :: bs, ha, hb, hk, hs => by
    simp only [List.map_cons, List.cons.injEq] at hk hs
    rw [Num.shown_inj as bs (fun x hx => ha x (by simp [hx])) (fun x hx => hb x (by simp [hx])) hk.2 hs.2]
    have h1 := ha a (by simp)
    have h2 := hb b (by simp)
    match a, b, hk.1, hs.1, h1, h2 with
    | .f x, .f y, _, e, h1, h2 => rw [NumFmt.Lawful.disp_inj x y h1 h2 e]
    | .n x, .n y, _, e, _, _ => rw [decN_inj x y e]

namespace AnyDist
theorem text_eq [NumFmt] (p : AnyDist) : p.text = call p.family.name (p.params.map Num.shown) := by cases p <;> rfl
theorem kinds_eq (p : AnyDist) : p.params.map Num.isInt = p.family.kinds := by cases p <;> rfl
end AnyDist
theorem Family.name_clean (f : Family) : Clean f.name.toList := by
  unfold Clean
  cases f <;> (unfold Family.name; decide)
end Rstat
