import Verif.Float.Core

/-! Model of the numeric constants of /repo/src/consts.rs. They are constant expressions in f64 arithmetic on
`std::f64::consts::{PI, E}`, so each is modelled by the same f64 expression. -/
namespace Rstat
namespace Consts
variable [FP]
/-- src/consts.rs:2 `std::f64::consts::PI` (the f64 nearest to π) -/
noncomputable def PI : F64 := F64.lit Real.pi
/-- src/consts.rs:2 `std::f64::consts::E` -/
noncomputable def E : F64 := F64.lit (Real.exp 1)
/-- src/consts.rs:4 -/
noncomputable def PI_E : F64 := PI * E
/-- src/consts.rs:5 -/
noncomputable def PI_2 : F64 := PI * 2
/-- src/consts.rs:6 -/
noncomputable def PI_E_2 : F64 := PI_E * 2
/-- src/consts.rs:7 -/
noncomputable def PI_16 : F64 := PI * 16
/-- src/consts.rs:8 -/
noncomputable def PI_OVER_2 : F64 := PI / 2
/-- src/consts.rs:9 -/
noncomputable def PI_OVER_4 : F64 := PI / 4
/-- src/consts.rs:12 -/
noncomputable def PI2 : F64 := PI * PI
/-- src/consts.rs:10 -/
noncomputable def PI2_OVER_6 : F64 := PI2 / 6
/-- src/consts.rs:13 -/
noncomputable def PI3 : F64 := PI * PI * PI
/-- src/consts.rs:14 -/
noncomputable def PI4 : F64 := PI * PI * PI * PI
/-- src/consts.rs:15 -/
noncomputable def PI5 : F64 := PI * PI * PI * PI * PI
/-- src/consts.rs:17 -/
noncomputable def ONE_OVER_PI : F64 := 1 / PI
/-- src/consts.rs:18 -/
noncomputable def TWO_OVER_PI : F64 := 2 / PI
/-- src/consts.rs:19 -/
noncomputable def TWO_OVER_PI2 : F64 := 2 / PI2
/-- src/consts.rs:21 -/
noncomputable def ONE_HALF : F64 := 1 / 2
/-- src/consts.rs:22 -/
noncomputable def ONE_THIRD : F64 := 1 / 3
/-- src/consts.rs:23 -/
noncomputable def ONE_TWELTH : F64 := 1 / 12
/-- src/consts.rs:24 -/
noncomputable def ONE_TWENTY_FOURTH : F64 := 1 / 24
/-- src/consts.rs:26 -/
noncomputable def TWO_THIRDS : F64 := 2 / 3
/-- src/consts.rs:27 -/
noncomputable def THREE_HALVES : F64 := 3 / 2
/-- src/consts.rs:28 -/
noncomputable def THREE_FIFTHS : F64 := 3 / 5
/-- src/consts.rs:29 -/
noncomputable def SIX_FIFTHS : F64 := 6 / 5
/-- src/consts.rs:30 -/
noncomputable def NINE_FIFTHS : F64 := 9 / 5
/-- src/consts.rs:31 -/
noncomputable def TWELVE_FIFTHS : F64 := 12 / 5
/-- src/consts.rs:32 -/
noncomputable def TWENTY_ONE_FIFTHS : F64 := 21 / 5
/-- src/consts.rs:33 -/
noncomputable def TWENTY_SEVEN_FIFTHS : F64 := 27 / 5
/-- src/consts.rs:35 -/
noncomputable def NINETEEN_OVER_360 : F64 := 19 / 360
end Consts
end Rstat
