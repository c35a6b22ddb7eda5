import Verif.Float.Lemmas

namespace Rstat
open F64
theorem pos_of_lt {b : F64} {v : ℝ} (h : 0 < b) (hb : b.Is v) : 0 < v := (Is.zero.lt_iff hb).1 h
theorem lt_of_pos {b : F64} {v : ℝ} (h : 0 < v) (hb : b.Is v) : 0 < b := (Is.zero.lt_iff hb).2 h
end Rstat
