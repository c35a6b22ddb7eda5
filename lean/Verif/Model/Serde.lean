import Verif.Model.Utils
import Verif.Model.Mixture

/-! Model of the (de)serialisation that `#[derive(Serialize, Deserialize)]` (feature `serde`, Cargo.toml:24) generates for the parameter
types of /repo: src/probability.rs:22-28 and :314-326, src/params/mod.rs:65-71 (`param!`) and :124-133 (`params!`), src/params/corr.rs:6-12,
src/params/concentrations.rs:6-19, src/normal/mod.rs:13-19 and :175-205, src/multivariate/multinomial.rs:16-25,
src/univariate/categorical.rs:6-14, src/univariate/uniform.rs:20-29, src/mixture.rs:13-22.

Simplifications. The format is self-describing and carries every binary64 value and every 64-bit integer unchanged (as CBOR or MessagePack do;
JSON has no NaN), so it is represented by the tree it transports. Errors are collapsed to `none`. A newtype struct is transparent, as in every
common self-describing format. Only string keys are modelled. No field of /repo carries `default`, `rename`, `skip`, `flatten`,
`deny_unknown_fields` or a validating attribute (`try_from`), so the derived code is the plain one. -/
namespace Rstat

/-- the data a self-describing serde format transports -/
inductive Data where
  | f64 (v : F64)
  | u64 (n : ℕ)
  | i64 (z : ℤ)
  | seq (l : List Data)
  | map (l : List (String × Data))

mutual
/-- the shapes of the serialisable types of /repo -/
inductive STy where
  | f64
  | usize
  | i64
  /-- a derived newtype struct `struct T(U)`: src/params/mod.rs:65-71, src/probability.rs:22-28, src/params/corr.rs:6-12,
  src/normal/mod.rs:13-19 -/
  | newtype (t : STy)
  /-- a tuple `(A, B)`: src/normal/bivariate.rs:18 -/
  | pair (a b : STy)
  /-- `[T; n]`, through src/utils.rs:30-90 (src/params/concentrations.rs:13-18, src/probability.rs:320-326) or serde's own impl, which has the
  same format -/
  | arr (n : ℕ) (t : STy)
  /-- `Vec<T>`: src/mixture.rs:21 -/
  | vec (t : STy)
  /-- a derived struct with named fields: src/params/mod.rs:124-133 and the hand-written `Params` -/
  | struct (fs : Flds)
/-- named fields of a struct, in declaration order -/
inductive Flds where
  | one (name : String) (t : STy)
  | cons (name : String) (t : STy) (fs : Flds)
end

mutual
/-- values of a shape; a struct is the tuple of its fields -/
@[reducible] def STy.Val : STy → Type
  | .f64 => F64
  | .usize => ℕ
  | .i64 => ℤ
  | .newtype t => t.Val
  | .pair a b => a.Val × b.Val
  | .arr n t => Fin n → t.Val
  | .vec t => List t.Val
  | .struct fs => fs.Val
/-- values of the fields -/
@[reducible] def Flds.Val : Flds → Type
  | .one _ t => t.Val
  | .cons _ t fs => t.Val × fs.Val
end

/-- the fields of a struct under construction in the derived `visit_map`: each is still absent or already read -/
@[reducible] def Flds.Slots : Flds → Type
  | .one _ t => Option t.Val
  | .cons _ t fs => Option t.Val × fs.Slots

/-- no field has been read yet -/
def Flds.empty : (fs : Flds) → fs.Slots
  | .one _ _ => none
  | .cons _ _ fs => (none, fs.empty)

/-- the names of the fields -/
def Flds.names : Flds → List String
  | .one n _ => [n]
  | .cons n _ fs => n :: fs.names

mutual
/-- the derived `Serialize`: a newtype forwards, an array goes through `serialize_tuple` (src/utils.rs:38-49), a struct is a map from field name
to field value in declaration order -/
def STy.ser : (t : STy) → t.Val → Data
  | .f64, v => .f64 v
  | .usize, v => .u64 v
  | .i64, v => .i64 v
  | .newtype t, v => t.ser v
  | .pair a b, v => .seq [a.ser v.1, b.ser v.2]
  | .arr n t, v => .seq ((serializeArray (ε := Empty) (n := n) fun i => t.ser (v i)).2.filterMap Except.toOption)
  | .vec t, v => .seq (List.map (fun x => t.ser x) v)
  | .struct fs, v => .map (fs.ser v)
/-- the entries of the map -/
def Flds.ser : (fs : Flds) → fs.Val → List (String × Data)
  | .one n t, v => [(n, t.ser v)]
  | .cons n t fs, v => (n, t.ser v.1) :: fs.ser v.2
end

/-- the finished struct: a field never read is an error (`missing_field`; no field of /repo is an `Option`) -/
def Flds.finish : (fs : Flds) → fs.Slots → Option fs.Val
  | .one _ _, s => s
  | .cons _ _ fs, s =>
    match s.1, fs.finish s.2 with
    | some v, some vs => some (v, vs)
    | _, _ => none

/-- serde's visitor of `f64`: integers are converted -/
noncomputable def deF64 [FP] : Data → Option F64
  | .f64 v => some v
  | .u64 n => some (F64.ofNat n)
  | .i64 z => some (F64.ofInt z)
  | _ => none
/-- serde's visitor of `usize`: integers in range -/
def deUsize : Data → Option ℕ
  | .u64 n => if n < 2 ^ 64 then some n else none
  | .i64 z => if 0 ≤ z ∧ z < 2 ^ 64 then some z.toNat else none
  | _ => none
/-- serde's visitor of `i64`: integers in range -/
def deI64 : Data → Option ℤ
  | .u64 n => if n < 2 ^ 63 then some (n : ℤ) else none
  | .i64 z => if -2 ^ 63 ≤ z ∧ z < 2 ^ 63 then some z else none
  | _ => none
/-- serde's visitor of a pair -/
def dePair {α β : Type} (da : Data → Option α) (db : Data → Option β) : Data → Option (α × β)
  | .seq (x :: y :: _) => (da x).bind fun v => (db y).map fun w => (v, w)
  | _ => none
/-- `seq.next_element()` for one element of the data (src/utils.rs:71) -/
def nextElement {α : Type} (da : Data → Option α) (d : Data) : Except Unit α :=
  match da d with
  | some v => .ok v
  | none => .error ()
/-- src/utils.rs:64-89 applied to the elements of a sequence -/
def deArr {α : Type} (n : ℕ) (da : Data → Option α) : Data → Option (Fin n → α)
  | .seq l =>
    match deserializeArray (ε := Unit) n (l.map (nextElement da)) with
    | .ok (.ok a) => some a
    | _ => none
  | _ => none
/-- serde's visitor of `Vec<T>` -/
def deVec {α : Type} (da : Data → Option α) : Data → Option (List α)
  | .seq l => l.mapM da
  | _ => none
/-- the derived visitor of a struct: `visit_map` or `visit_seq` -/
def deStruct {α β : Type} (put : String → Data → α → Option α) (empty : α) (finish : α → Option β) (deSeq : List Data → Option β) :
    Data → Option β
  | .map l => (l.foldlM (fun s kv => put kv.1 kv.2 s) empty).bind finish
  | .seq l => deSeq l
  | _ => none
/-- one entry of the derived `visit_map` for the field it names: a field already read is a `duplicate_field` error -/
def slot {α : Type} (da : Data → Option α) (d : Data) : Option α → Option (Option α)
  | some _ => none
  | none => (da d).map some

mutual
/-- the derived `Deserialize`. A float accepts integers (serde's `f64` visitor converts them), an integer accepts the integers in its range, an
array goes through `visit_seq` of src/utils.rs:64-81, a struct accepts a map (`visit_map`) or a sequence of its fields (`visit_seq`) -/
noncomputable def STy.de [FP] : (t : STy) → Data → Option t.Val
  | .f64, d => deF64 d
  | .usize, d => deUsize d
  | .i64, d => deI64 d
  | .newtype t, d => t.de d
  | .pair a b, d => dePair (fun x => a.de x) (fun x => b.de x) d
  | .arr n t, d => deArr n (fun x => t.de x) d
  | .vec t, d => deVec (fun x => t.de x) d
  | .struct fs, d => deStruct (fun k x s => fs.put k x s) fs.empty fs.finish (fun l => fs.deSeq l) d
/-- one entry of the derived `visit_map`: an unknown key is skipped -/
noncomputable def Flds.put [FP] : (fs : Flds) → String → Data → fs.Slots → Option fs.Slots
  | .one n t, k, d, s => if k = n then slot (fun x => t.de x) d s else some s
  | .cons n t fs, k, d, s =>
    if k = n then (slot (fun x => t.de x) d s.1).map (fun a => (a, s.2)) else (fs.put k d s.2).map fun r => (s.1, r)
/-- the derived `visit_seq` of a struct: the fields in declaration order; further elements are left to the format -/
noncomputable def Flds.deSeq [FP] : (fs : Flds) → List Data → Option fs.Val
  | .one _ t, l => l.head?.bind fun d => t.de d
  | .cons _ t fs, l => l.head?.bind fun d => (t.de d).bind fun v => (fs.deSeq l.tail).map fun vs => (v, vs)
end
end Rstat
