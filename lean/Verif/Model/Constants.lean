import Mathlib.Analysis.SpecialFunctions.Sqrt

/-! # `angler/constants.py` -/

namespace Angler

/-- `constants.py:3`. -/
noncomputable def EPSILON_0 : ℝ := 8.85418782e-12
/-- `constants.py:4`. -/
noncomputable def MU_0 : ℝ := 1.25663706e-6
/-- `constants.py:5`. -/
noncomputable def C_0 : ℝ := Real.sqrt (1 / EPSILON_0 / MU_0)
/-- `constants.py:6`. -/
noncomputable def ETA_0 : ℝ := Real.sqrt (MU_0 / EPSILON_0)

theorem EPSILON_0_pos : 0 < EPSILON_0 := by unfold EPSILON_0; norm_num
theorem MU_0_pos : 0 < MU_0 := by unfold MU_0; norm_num
theorem ETA_0_pos : 0 < ETA_0 := Real.sqrt_pos.2 (div_pos MU_0_pos EPSILON_0_pos)

end Angler
