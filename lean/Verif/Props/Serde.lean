import Verif.Lemmas.Serde

/-! Properties C225 (general part): values written by the derived serialisation are read back unchanged. The theorems here are about every
type shape of /repo at once; `Props/SerdeTypes.lean` instantiates them at each parameter type. -/
set_option linter.unusedSectionVars false
namespace Rstat

mutual
/-- no two fields of one struct have the same name (rustc refuses anything else) -/
def Spec.WF : STy → Prop
  | .f64 | .usize | .i64 => True
  | .newtype t => WF t
  | .pair a b => WF a ∧ WF b
  | .arr _ t => WF t
  | .vec t => WF t
  | .struct fs => fs.names.Nodup ∧ WFs fs
/-- of the fields -/
def Spec.WFs : Flds → Prop
  | .one _ t => WF t
  | .cons _ t fs => WF t ∧ WFs fs
end

mutual
/-- the integers in a value fit their 64-bit types (every value of the Rust types does) -/
def Spec.Fits : (t : STy) → t.Val → Prop
  | .f64, _ => True
  | .usize, n => n < 2 ^ 64
  | .i64, z => -2 ^ 63 ≤ z ∧ z < 2 ^ 63
  | .newtype t, v => Fits t v
  | .pair a b, v => Fits a v.1 ∧ Fits b v.2
  | .arr _ t, v => ∀ i, Fits t (v i)
  | .vec t, v => ∀ x ∈ v, Fits t x
  | .struct fs, v => FitsF fs v
/-- of the fields -/
def Spec.FitsF : (fs : Flds) → fs.Val → Prop
  | .one _ t, v => Fits t v
  | .cons _ t fs, v => Fits t v.1 ∧ FitsF fs v.2
end

variable [FP]
open Spec

theorem ser_keys (fs : Flds) (v : fs.Val) : (fs.ser v).map Prod.fst = fs.names := by
  match fs, v with
  | .one n t, v => rfl
  | .cons n t fs, (v, w) =>
    change n :: (fs.ser w).map Prod.fst = n :: fs.names
    rw [ser_keys fs w]

theorem arr_round {n : ℕ} {t : STy} (v : Fin n → t.Val) (h : ∀ i, t.de (t.ser (v i)) = some (v i)) (rest : List Data) :
    deArr n (fun x => t.de x) (.seq (((serializeArray (ε := Empty) fun i => t.ser (v i)).2.filterMap Except.toOption) ++ rest)) = some v := by
  have e : ((serializeArray (ε := Empty) fun i => t.ser (v i)).2.filterMap Except.toOption) = List.ofFn fun i => t.ser (v i) := by
    simp only [serializeArray, List.filterMap_map, List.ofFn_eq_map]
    rw [← List.filterMap_eq_map]; rfl
  unfold deArr
  rw [e]
  have : ((List.ofFn fun i => t.ser (v i)) ++ rest).map (nextElement fun x => t.de x) =
      (serializeArray (ε := Unit) v).2 ++ rest.map (nextElement fun x => t.de x) := by
    rw [List.map_append]
    congr 1
    simp only [serializeArray, List.ofFn_eq_map, List.map_map]
    refine List.map_congr_left fun i _ => ?_
    simp [Function.comp, h i, nextElement]
  dsimp only
  rw [this, C31_roundtrip]

mutual
theorem de_ser (t : STy) (hw : WF t) (v : t.Val) (hf : Fits t v) : t.de (t.ser v) = some v := by
  match t, v with
  | .f64, v => rfl
  | .usize, v => exact if_pos hf
  | .i64, v => exact if_pos hf
  | .newtype t, v => exact de_ser t hw v hf
  | .pair a b, (v, w) =>
    have h1 := de_ser a hw.1 v hf.1
    have h2 := de_ser b hw.2 w hf.2
    change ((a.de (a.ser v)).bind fun v => (b.de (b.ser w)).map fun w => (v, w)) = _
    rw [h1, h2]; rfl
  | .arr n t, v =>
    have := arr_round (n := n) v (fun i => de_ser t hw (v i) (hf i)) []
    rwa [List.append_nil] at this
  | .vec t, v =>
    change (List.map (fun x => t.ser x) v).mapM (fun d => t.de d) = some v
    have hf' : ∀ x ∈ v, Fits t x := hf
    rw [List.mapM_map]
    clear hf
    induction v with
    | nil => rfl
    | cons x xs ih =>
      rw [List.mapM_cons, Function.comp_apply, de_ser t hw x (hf' x (by simp)), ih fun y hy => hf' y (by simp [hy])]; rfl
  | .struct fs, v => exact deMap_ser fs hw.1 hw.2 v hf
theorem deMap_ser (fs : Flds) (hn : fs.names.Nodup) (hw : WFs fs) (v : fs.Val) (hf : FitsF fs v) : fs.deMap (fs.ser v) = some v := by
  match fs, v with
  | .one n t, v =>
    change (Flds.one n t).deMap [(n, t.ser v)] = _
    rw [deMap_one, uniq_cons_self (by simp)]
    exact de_ser t hw v hf
  | .cons n t fs, (v, w) =>
    have hn' : n ∉ fs.names ∧ fs.names.Nodup := by simpa [Flds.names] using hn
    change (Flds.cons n t fs).deMap ((n, t.ser v) :: fs.ser w) = _
    rw [deMap_cons n t fs hn'.1, uniq_cons_self (by rw [ser_keys]; exact hn'.1), Option.bind_some, de_ser t hw.1 v hf.1, Option.bind_some,
      deMap_skip fs hn'.2 hn'.1, deMap_ser fs hn'.2 hw.2 w hf.2]
    rfl
end

theorem deSeq_ser (fs : Flds) (hw : WFs fs) (v : fs.Val) (hf : FitsF fs v) (rest : List Data) :
    fs.deSeq ((fs.ser v).map Prod.snd ++ rest) = some v := by
  match fs, v with
  | .one n t, v => exact de_ser t hw v hf
  | .cons n t fs, (v, w) =>
    change ((t.de (t.ser v)).bind fun v => (fs.deSeq ((fs.ser w).map Prod.snd ++ rest)).map fun vs => (v, vs)) = _
    rw [de_ser t hw.1 v hf.1, deSeq_ser fs hw.2 w hf.2 rest]; rfl

theorem deUsize_fits {d : Data} {v : ℕ} (h : deUsize d = some v) : v < 2 ^ 64 := by
  unfold deUsize at h
  split at h
  · split at h
    · cases h; assumption
    · cases h
  · split at h
    · cases h; omega
    · cases h
  · cases h
theorem deI64_fits {d : Data} {v : ℤ} (h : deI64 d = some v) : -2 ^ 63 ≤ v ∧ v < 2 ^ 63 := by
  unfold deI64 at h
  split at h
  · split at h
    · cases h; omega
    · cases h
  · split at h
    · cases h; assumption
    · cases h
  · cases h
theorem mapM_mem {α β : Type} {f : α → Option β} {l : List α} {r : List β} (h : l.mapM f = some r) : ∀ y ∈ r, ∃ x ∈ l, f x = some y := by
  induction l generalizing r with
  | nil => cases h; simp
  | cons y l ih =>
    rw [List.mapM_cons] at h
    obtain ⟨a, h1, h⟩ := Option.bind_eq_some_iff.1 h
    obtain ⟨r, h2, h⟩ := Option.bind_eq_some_iff.1 h
    cases h
    intro x hx
    rcases List.mem_cons.1 hx with rfl | hx
    · exact ⟨y, by simp, h1⟩
    · obtain ⟨z, hz, hzx⟩ := ih h2 x hx; exact ⟨z, by simp [hz], hzx⟩

mutual
theorem de_fits (t : STy) (hw : WF t) (d : Data) (v : t.Val) (h : t.de d = some v) : Fits t v := by
  match t, v with
  | .f64, v => trivial
  | .usize, v => exact deUsize_fits h
  | .i64, v => exact deI64_fits h
  | .newtype t, v => exact de_fits t hw d v h
  | .pair a b, (v, w) =>
    match d, h with
    | .seq (x :: y :: r), h =>
      have h : ((a.de x).bind fun v => (b.de y).map fun w => (v, w)) = some (v, w) := h
      obtain ⟨v', h1, h⟩ := Option.bind_eq_some_iff.1 h
      obtain ⟨w', h2, h⟩ := Option.map_eq_some_iff.1 h
      cases h
      exact ⟨de_fits a hw.1 x v h1, de_fits b hw.2 y w h2⟩
  | .arr n t, v =>
    match d, h with
    | .seq l, h =>
      have h : deArr n (fun x => t.de x) (.seq l) = some v := h
      unfold deArr at h
      dsimp only at h
      rcases C31_never_incomplete n (l.map (nextElement fun x => t.de x)) with ⟨e, he⟩ | ⟨a, ha, rest, hr⟩
      · rw [he] at h; cases h
      · rw [ha] at h
        cases h
        change ∀ i, Fits t (v i)
        intro i
        have hm : Except.ok (v i) ∈ l.map (nextElement fun x => t.de x) := by
          rw [hr]; exact List.mem_append_left _ (List.mem_map.2 ⟨v i, by simp [List.mem_ofFn], rfl⟩)
        obtain ⟨x, -, hx⟩ := List.mem_map.1 hm
        unfold nextElement at hx
        split at hx
        · rename_i w hw'
          cases hx; exact de_fits t hw x _ hw'
        · cases hx
  | .vec t, v =>
    match d, h with
    | .seq l, h =>
      have h : l.mapM (fun x => t.de x) = some v := h
      change ∀ x ∈ v, Fits t x
      intro x hx
      obtain ⟨y, -, hy⟩ := mapM_mem h x hx
      exact de_fits t hw y x hy
  | .struct fs, v =>
    match d, h with
    | .map l, h => exact deMap_fits fs hw.1 hw.2 l v h
    | .seq l, h => exact deSeq_fits fs hw.2 l v h
theorem deMap_fits (fs : Flds) (hn : fs.names.Nodup) (hw : WFs fs) (l : List (String × Data)) (v : fs.Val) (h : fs.deMap l = some v) :
    FitsF fs v := by
  match fs, v with
  | .one n t, v =>
    rw [deMap_one] at h
    obtain ⟨d, -, hd⟩ := Option.bind_eq_some_iff.1 h
    exact de_fits t hw d v hd
  | .cons n t fs, (v, w) =>
    have hn' : n ∉ fs.names ∧ fs.names.Nodup := by simpa [Flds.names] using hn
    rw [deMap_cons n t fs hn'.1] at h
    obtain ⟨d, -, h⟩ := Option.bind_eq_some_iff.1 h
    obtain ⟨v', h1, h⟩ := Option.bind_eq_some_iff.1 h
    obtain ⟨w', h2, h⟩ := Option.map_eq_some_iff.1 h
    cases h
    exact ⟨de_fits t hw.1 d v h1, deMap_fits fs hn'.2 hw.2 l w h2⟩
theorem deSeq_fits (fs : Flds) (hw : WFs fs) (l : List Data) (v : fs.Val) (h : fs.deSeq l = some v) : FitsF fs v := by
  match fs, v with
  | .one n t, v =>
    have h : (l.head?.bind fun d => t.de d) = some v := h
    obtain ⟨d, -, hd⟩ := Option.bind_eq_some_iff.1 h
    exact de_fits t hw d v hd
  | .cons n t fs, (v, w) =>
    have h : (l.head?.bind fun d => (t.de d).bind fun v => (fs.deSeq l.tail).map fun vs => (v, vs)) = some (v, w) := h
    obtain ⟨d, -, h⟩ := Option.bind_eq_some_iff.1 h
    obtain ⟨v', h1, h⟩ := Option.bind_eq_some_iff.1 h
    obtain ⟨w', h2, h⟩ := Option.map_eq_some_iff.1 h
    cases h
    exact ⟨de_fits t hw.1 d v h1, deSeq_fits fs hw.2 l.tail w h2⟩
end

/-- C225: what is written is read back unchanged, for every type shape -/
theorem C225_round_trip (t : STy) (hw : WF t) (v : t.Val) (hf : Fits t v) : t.de (t.ser v) = some v := de_ser t hw v hf
/-- C225: the entries of a struct may come in any order, among entries with other names -/
theorem C225_field_order (fs : Flds) (hw : WF (.struct fs)) (v : fs.Val) (hf : FitsF fs v) (others l : List (String × Data))
    (ho : ∀ kv ∈ others, kv.1 ∉ fs.names) (hl : l.Perm (fs.ser v ++ others)) : STy.de (.struct fs) (.map l) = some v :=
  (deMap_perm fs hw.1 hl).trans ((deMap_unknown fs hw.1 ho).trans (deMap_ser fs hw.1 hw.2 v hf))
/-- C225: a struct is read only from a map in which each of its fields occurs exactly once: missing and repeated fields are refused -/
theorem C225_exactly_once (fs : Flds) (hw : WF (.struct fs)) (l : List (String × Data)) (v : fs.Val)
    (h : STy.de (.struct fs) (.map l) = some v) : ∀ n ∈ fs.names, (l.map Prod.fst).count n = 1 := deMap_some fs hw.1 h
/-- C225: numbers. A float field reads floats unchanged and integers by conversion, an integer field reads exactly the integers in its range,
with the value written, and nothing else is read as a number. -/
theorem C225_numbers [FP] (d : Data) :
    (∀ v, STy.f64.de d = some v ↔ d = .f64 v ∨ (∃ n : ℕ, d = .u64 n ∧ v = F64.ofNat n) ∨ ∃ z : ℤ, d = .i64 z ∧ v = F64.ofInt z) ∧
    (∀ v : ℕ, STy.usize.de d = some v ↔ v < 2 ^ 64 ∧ (d = .u64 v ∨ d = .i64 v)) ∧
    (∀ v : ℤ, STy.i64.de d = some v ↔ -2 ^ 63 ≤ v ∧ v < 2 ^ 63 ∧ (d = .i64 v ∨ ∃ n : ℕ, (n : ℤ) = v ∧ d = .u64 n)) := by
  refine ⟨fun v => ?_, fun v => ?_, fun v => ?_⟩
  · cases d <;> simp [STy.de, deF64, eq_comm]
  · cases d with
    | u64 n =>
      simp only [STy.de, deUsize]
      by_cases h : n < 2 ^ 64
      · rw [if_pos h]; constructor
        · rintro h1; cases h1; exact ⟨h, .inl rfl⟩
        · rintro ⟨-, h1 | h1⟩ <;> cases h1; rfl
      · rw [if_neg h]; constructor
        · intro h1; cases h1
        · rintro ⟨h0, h1 | h1⟩ <;> cases h1; exact absurd h0 h
    | i64 z =>
      simp only [STy.de, deUsize]
      by_cases h : 0 ≤ z ∧ z < 2 ^ 64
      · rw [if_pos h]; constructor
        · rintro h1; cases h1
          exact ⟨by omega, .inr (by rw [Int.toNat_of_nonneg h.1])⟩
        · rintro ⟨-, h1 | h1⟩ <;> cases h1; simp
      · rw [if_neg h]; constructor
        · intro h1; cases h1
        · rintro ⟨h0, h1 | h1⟩ <;> cases h1; exact absurd ⟨by omega, by omega⟩ h
    | f64 _ => simp [STy.de, deUsize]
    | seq _ => simp [STy.de, deUsize]
    | map _ => simp [STy.de, deUsize]
  · cases d with
    | u64 n =>
      simp only [STy.de, deI64]
      by_cases h : n < 2 ^ 63
      · rw [if_pos h]; constructor
        · rintro h1; cases h1; exact ⟨by omega, by omega, .inr ⟨n, rfl, rfl⟩⟩
        · rintro ⟨-, -, h1 | ⟨m, h2, h1⟩⟩ <;> cases h1; rw [h2]
      · rw [if_neg h]; constructor
        · intro h1; cases h1
        · rintro ⟨-, h0, h1 | ⟨m, h2, h1⟩⟩ <;> cases h1; omega
    | i64 z =>
      simp only [STy.de, deI64]
      by_cases h : -2 ^ 63 ≤ z ∧ z < 2 ^ 63
      · rw [if_pos h]; constructor
        · rintro h1; cases h1; exact ⟨h.1, h.2, .inl rfl⟩
        · rintro ⟨-, -, h1 | ⟨m, h2, h1⟩⟩ <;> cases h1; rfl
      · rw [if_neg h]; constructor
        · intro h1; cases h1
        · rintro ⟨h0, h3, h1 | ⟨m, h2, h1⟩⟩ <;> cases h1; exact absurd ⟨h0, h3⟩ h
    | f64 _ => simp [STy.de, deI64]
    | seq _ => simp [STy.de, deI64]
    | map _ => simp [STy.de, deI64]
/-- C225: the values alone, in declaration order, are read too -/
theorem C225_positional (fs : Flds) (hw : WF (.struct fs)) (v : fs.Val) (hf : FitsF fs v) (rest : List Data) :
    STy.de (.struct fs) (.seq ((fs.ser v).map Prod.snd ++ rest)) = some v := deSeq_ser fs hw.2 v hf rest
/-- C225: whatever is read has its integers within their 64-bit types -/
theorem C225_in_range (t : STy) (hw : WF t) (d : Data) (v : t.Val) (h : t.de d = some v) : Fits t v := de_fits t hw d v h
end Rstat
