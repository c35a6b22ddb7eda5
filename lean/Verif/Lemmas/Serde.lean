import Verif.Model.Serde
import Verif.Props.Utils

/-! Lemmas about the derived `visit_map` -/
set_option linter.unusedSectionVars false
namespace Rstat
variable [FP]

/-- the entry of a map with a given key, if there is exactly one -/
def uniq (n : String) (l : List (String × Data)) : Option Data :=
  match l.filter (fun kv => kv.1 = n) with
  | [kv] => some kv.2
  | _ => none

theorem slot_fold (t : STy) (L : List (String × Data)) :
    L.foldlM (fun s kv => slot t.de kv.2 s) none = match L with
      | [] => some none
      | [kv] => (t.de kv.2).map some
      | _ => none := by
  match L with
  | [] => rfl
  | [kv] => simp only [List.foldlM_cons, List.foldlM_nil, slot]; cases t.de kv.2 <;> rfl
  | a :: b :: r =>
    simp only [List.foldlM_cons, slot]
    cases t.de a.2 <;> rfl

theorem put_one (n : String) (t : STy) (k : String) (d : Data) (s : (Flds.one n t).Slots) :
    (Flds.one n t).put k d s = if k = n then slot t.de d s else some s := rfl

theorem put_cons (n : String) (t : STy) (fs : Flds) (k : String) (d : Data) (s : Option t.Val) (r : fs.Slots) :
    (Flds.cons n t fs).put k d (s, r) = if k = n then (slot t.de d s).map (fun a => (a, r)) else (fs.put k d r).map fun r => (s, r) := rfl

theorem put_unknown (fs : Flds) (k : String) (d : Data) (s : fs.Slots) (h : k ∉ fs.names) : fs.put k d s = some s := by
  match fs, s with
  | .one n t, s => rw [put_one, if_neg]; simpa [Flds.names] using h
  | .cons n t fs, (s, r) =>
    simp only [Flds.names, List.mem_cons, not_or] at h
    rw [put_cons, if_neg h.1, put_unknown fs k d r h.2]; rfl

theorem fold_one (n : String) (t : STy) (l : List (String × Data)) (s : Option t.Val) :
    l.foldlM (fun s kv => (Flds.one n t).put kv.1 kv.2 s) s = (l.filter (fun kv => kv.1 = n)).foldlM (fun s kv => slot t.de kv.2 s) s := by
  induction l generalizing s with
  | nil => rfl
  | cons kv l ih =>
    rw [List.foldlM_cons, put_one]
    by_cases h : kv.1 = n
    · rw [if_pos h, List.filter_cons_of_pos (by simpa using h), List.foldlM_cons]
      exact bind_congr fun a => ih a
    · rw [if_neg h, List.filter_cons_of_neg (by simpa using h)]; exact ih s

theorem fold_cons (n : String) (t : STy) (fs : Flds) (hn : n ∉ fs.names) (l : List (String × Data)) (s : Option t.Val) (r : fs.Slots) :
    l.foldlM (fun s kv => (Flds.cons n t fs).put kv.1 kv.2 s) (s, r) =
      ((l.filter (fun kv => kv.1 = n)).foldlM (fun s kv => slot t.de kv.2 s) s).bind fun a =>
        (l.foldlM (fun s kv => fs.put kv.1 kv.2 s) r).map fun b => (a, b) := by
  induction l generalizing s r with
  | nil => rfl
  | cons kv l ih =>
    rw [List.foldlM_cons, put_cons]
    by_cases h : kv.1 = n
    · rw [if_pos h, List.filter_cons_of_pos (by simpa using h), List.foldlM_cons, List.foldlM_cons,
        put_unknown fs kv.1 kv.2 r (h ▸ hn)]
      cases e : slot t.de kv.2 s with
      | none => simp [e]
      | some a =>
        have := ih a r
        simpa [e] using this
    · rw [if_neg h, List.filter_cons_of_neg (by simpa using h), List.foldlM_cons]
      cases e : fs.put kv.1 kv.2 r with
      | none => cases (l.filter (fun kv => kv.1 = n)).foldlM (fun s kv => slot t.de kv.2 s) s <;> simp
      | some b => simpa using ih s b

/-- what the derived `visit_map` returns -/
noncomputable def Flds.deMap (fs : Flds) (l : List (String × Data)) : Option fs.Val := STy.de (.struct fs) (.map l)

theorem deMap_one (n : String) (t : STy) (l : List (String × Data)) : (Flds.one n t).deMap l = (uniq n l).bind t.de := by
  have h := fold_one n t l (none : Option t.Val)
  change (l.foldlM (fun s kv => (Flds.one n t).put kv.1 kv.2 s) (none : Option t.Val)).bind (Flds.one n t).finish = _
  rw [h, slot_fold]; unfold uniq
  generalize l.filter (fun kv => kv.1 = n) = L
  match L with
  | [] => rfl
  | [kv] => simp only [Option.bind_some]; cases t.de kv.2 <;> rfl
  | _ :: _ :: _ => rfl

theorem deMap_cons (n : String) (t : STy) (fs : Flds) (hn : n ∉ fs.names) (l : List (String × Data)) :
    (Flds.cons n t fs).deMap l = (uniq n l).bind fun d => (t.de d).bind fun v => (fs.deMap l).map fun vs => (v, vs) := by
  have h := fold_cons n t fs hn l (none : Option t.Val) fs.empty
  have e : fs.deMap l = (l.foldlM (fun s kv => fs.put kv.1 kv.2 s) fs.empty).bind fs.finish := rfl
  change (l.foldlM (fun s kv => (Flds.cons n t fs).put kv.1 kv.2 s) (none, fs.empty)).bind (Flds.cons n t fs).finish = _
  rw [h, slot_fold, e]; unfold uniq
  generalize l.filter (fun kv => kv.1 = n) = L
  generalize l.foldlM (fun s kv => fs.put kv.1 kv.2 s) fs.empty = B
  match L with
  | [] => cases B <;> rfl
  | [kv] =>
    dsimp only
    rw [Option.bind_some]
    cases t.de kv.2 with
    | none => rfl
    | some v =>
      cases B with
      | none => rfl
      | some b =>
        simp only [Option.map_some, Option.bind_some]
        change (match some v, fs.finish b with | some v, some vs => some (v, vs) | _, _ => none) = _
        cases fs.finish b <;> rfl
  | _ :: _ :: _ => rfl

theorem uniq_of_perm {n : String} {l r : List (String × Data)} (h : l.Perm r) : uniq n l = uniq n r := by
  have hp := h.filter (fun kv => kv.1 = n)
  unfold uniq
  generalize l.filter (fun kv => kv.1 = n) = L at hp ⊢
  generalize r.filter (fun kv => kv.1 = n) = R at hp ⊢
  match L, R, hp with
  | L, [], hp => rw [List.Perm.eq_nil hp]
  | L, [kv], hp => rw [List.perm_singleton.1 hp]
  | [], _ :: _ :: _, hp => rfl
  | [_], _ :: _ :: _, hp => exact absurd hp.length_eq (by simp)
  | _ :: _ :: _, _ :: _ :: _, hp => rfl

theorem deMap_perm (fs : Flds) (hf : fs.names.Nodup) {l r : List (String × Data)} (h : l.Perm r) : fs.deMap l = fs.deMap r := by
  match fs with
  | .one n t => rw [deMap_one, deMap_one, uniq_of_perm h]
  | .cons n t fs =>
    simp only [Flds.names, List.nodup_cons] at hf
    rw [deMap_cons n t fs hf.1, deMap_cons n t fs hf.1, uniq_of_perm h, deMap_perm fs hf.2 h]

theorem uniq_append {n : String} {l u : List (String × Data)} (h : ∀ kv ∈ u, kv.1 ≠ n) : uniq n (l ++ u) = uniq n l := by
  unfold uniq
  have e : u.filter (fun kv => kv.1 = n) = [] := List.filter_eq_nil_iff.2 (by simpa using h)
  rw [List.filter_append, e, List.append_nil]

theorem uniq_cons_self {n : String} {d : Data} {l : List (String × Data)} (h : n ∉ l.map Prod.fst) : uniq n ((n, d) :: l) = some d := by
  unfold uniq
  rw [List.filter_cons_of_pos (by simp), List.filter_eq_nil_iff.2]
  intro kv hk he
  exact h (List.mem_map.2 ⟨kv, hk, by simpa using he⟩)

theorem uniq_cons_ne {n k : String} {d : Data} {l : List (String × Data)} (h : k ≠ n) : uniq n ((k, d) :: l) = uniq n l := by
  unfold uniq
  rw [List.filter_cons_of_neg (by simpa using h)]

theorem deMap_unknown (fs : Flds) (hf : fs.names.Nodup) {l u : List (String × Data)} (h : ∀ kv ∈ u, kv.1 ∉ fs.names) :
    fs.deMap (l ++ u) = fs.deMap l := by
  match fs with
  | .one n t => rw [deMap_one, deMap_one, uniq_append]; simpa [Flds.names] using h
  | .cons n t fs =>
    simp only [Flds.names, List.nodup_cons, List.mem_cons, not_or] at hf h
    rw [deMap_cons n t fs hf.1, deMap_cons n t fs hf.1, uniq_append (fun kv hk => (h kv hk).1), deMap_unknown fs hf.2 fun kv hk => (h kv hk).2]

theorem deMap_skip (fs : Flds) (hf : fs.names.Nodup) {k : String} {d : Data} {l : List (String × Data)} (h : k ∉ fs.names) :
    fs.deMap ((k, d) :: l) = fs.deMap l := by
  match fs with
  | .one n t => rw [deMap_one, deMap_one, uniq_cons_ne]; simpa [Flds.names] using h
  | .cons n t fs =>
    simp only [Flds.names, List.nodup_cons, List.mem_cons, not_or] at hf h
    rw [deMap_cons n t fs hf.1, deMap_cons n t fs hf.1, uniq_cons_ne h.1, deMap_skip fs hf.2 h.2]

/-- a struct is only read from a map in which each field occurs exactly once -/
theorem deMap_some (fs : Flds) (hf : fs.names.Nodup) {l : List (String × Data)} {v : fs.Val} (h : fs.deMap l = some v) :
    ∀ n ∈ fs.names, (l.map Prod.fst).count n = 1 := by
  have key : ∀ n d, uniq n l = some d → (l.map Prod.fst).count n = 1 := by
    intro n d hu
    unfold uniq at hu
    have e : (l.map Prod.fst).count n = (l.filter (fun kv => kv.1 = n)).length := by
      rw [List.count_eq_countP, List.countP_map, List.countP_eq_length_filter]
      rfl
    rw [e]
    generalize l.filter (fun kv => kv.1 = n) = L at hu ⊢
    match L with
    | [] => simp at hu
    | [kv] => rfl
    | _ :: _ :: _ => simp at hu
  match fs with
  | .one n t =>
    rw [deMap_one] at h
    obtain ⟨d, hd, -⟩ := Option.bind_eq_some_iff.1 h
    intro m hm
    simp only [Flds.names, List.mem_singleton] at hm
    exact hm ▸ key n d hd
  | .cons n t fs =>
    simp only [Flds.names, List.nodup_cons] at hf
    rw [deMap_cons n t fs hf.1] at h
    obtain ⟨d, hd, h⟩ := Option.bind_eq_some_iff.1 h
    obtain ⟨w, hw, h⟩ := Option.bind_eq_some_iff.1 h
    obtain ⟨vs, hvs, -⟩ := Option.map_eq_some_iff.1 h
    intro m hm
    simp only [Flds.names, List.mem_cons] at hm
    rcases hm with rfl | hm
    · exact key m d hd
    · exact deMap_some fs hf.2 hvs m hm
end Rstat
