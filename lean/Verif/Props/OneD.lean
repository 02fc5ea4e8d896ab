import Verif.Props.Maxwell
import Verif.Props.Translate
import Verif.Props.Solvable
import Verif.Props.GradientHz

/-! # C94: one-dimensional simulations -/

namespace Angler

open Matrix

variable {Nx Ny M M' : ℕ}

/-! ## Specification -/

/-- Maxwell's equations on a ring of `n` cells of size `h` with stretch factors, polarisation along `z`: `e` is the electric field, `hm` the magnetic field along `y`. -/
def Spec.Maxwell1Ez {n : ℕ} (omega mu h : ℝ) (sf sb : Fin n → ℂ) (eps J hm e : Fin n → ℂ) : Prop :=
  ∀ i, Complex.I * omega * mu * hm i = (e i - e (Spec.prev i)) / h / sb i ∧ (hm (Spec.next i) - hm i) / h / sf i - Complex.I * omega * eps i * e i = J i

/-- The same with the magnetic field `hm` along `z` and the electric field `e` along `y`; the permittivity `eps` belongs to the positions of `e`, the permeability `mu` to those of `hm`. -/
def Spec.Maxwell1Hz {n : ℕ} (omega h : ℝ) (sf sb : Fin n → ℂ) (eps mu J e hm : Fin n → ℂ) : Prop :=
  ∀ i, Complex.I * omega * eps i * e i = -((hm i - hm (Spec.prev i)) / h / sb i) ∧ -((e (Spec.next i) - e i) / h / sf i) - Complex.I * omega * mu i * hm i = J i

/-- The stretch factors along `x` of a simulation. -/
noncomputable def Spec.sx (s : Sim Nx Ny) (d : Dir) : Fin Nx → ℂ := create_sfactor (0, Nx * s.dl) s.L0 d s.omega Nx s.NPML.1

/-- Permittivity and source of `s` do not depend on `y` and are given by `eps` and `J`. -/
structure Spec.Uniform1 (s : Sim Nx Ny) (eps J : Fin Nx → ℂ) : Prop where
  eps_r : ∀ i j, s.eps_r i j = eps i
  src : ∀ i j, s.src i j = J i
  NPML : s.NPML.2 = 0

/-! ## Lemmas -/

theorem mkDerivs_y_one (omega L0 : ℝ) (NPML : ℕ × ℕ) (hP : NPML.2 = 0) (xr yr : ℝ × ℝ) :
    (mkDerivs omega xr yr Nx 1 NPML L0).Dyb = 1 ∧ (mkDerivs omega xr yr Nx 1 NPML L0).Dyf = 1 := by
  have h1 : ∀ d, createDws .y d (dL Nx 1 xr yr).1 (dL Nx 1 xr yr).2 Nx 1 = 1 := fun d => by simp [createDws]
  have h2 : ∀ d : Dir, (spdiag (flatten fun (_ : Fin Nx) (j : Fin 1) => 1 / create_sfactor yr L0 d omega 1 NPML.2 j) : Mat (Nx * 1) ℂ) = 1 := by
    intro d
    rw [hP]
    simp only [sfactor_zero, div_one]
    exact Matrix.diagonal_one
  constructor
  · simp only [mkDerivs, S_create, h1, mul_one]
    exact h2 .b
  · simp only [mkDerivs, S_create, h1, mul_one]
    exact h2 .f

/-- In a device that does not depend on `y` neither do the fields. -/
theorem uniform_fields (env : Env) (he : env.Exact) (s : Sim Nx Ny) (hv : s.Valid) (eps J : Fin Nx → ℂ) (hu : Spec.Uniform1 s eps J) (hdet : s.A.det ≠ 0) (avg : Bool)
    (t : Triple Nx Ny) (ht : (s.solve_fields env false avg).1 = .ok t) : ∀ i j, t.1 i j = t.1 i (Spec.prev j) ∧ t.2.1 i j = t.2.1 i (Spec.prev j) ∧ t.2.2 i j = t.2.2 i (Spec.prev j) := by
  let s0 : Sim Nx Ny := { s with fields := fun _ => none, fields_nl := fun _ => none, nonlinearity := [] }
  have hv0 : s0.Valid := { hv with }
  have hM : Spec.Moved 0 1 s0 s0 :=
    { L0 := rfl, dl := rfl, omega := rfl, NPML := rfl, pol := rfl
      eps_r := by funext i j; show s.eps_r i j = s.eps_r _ _; rw [hu.eps_r, hu.eps_r]; rfl
      src := by funext i j; show s.src i j = s.src _ _; rw [hu.src, hu.src]; rfl
      nonlinearity := rfl, fields := rfl, fields_nl := rfl }
  have h := (C73_linear env he 0 1 s0 s0 hM hv0 hv0 ⟨Or.inl rfl, Or.inr hu.NPML⟩ hdet avg).1
  have h0 : (s0.solve_fields env false avg).1 = .ok t := ht
  rw [h0] at h
  have h1 := Except.ok.inj h
  intro i j
  exact ⟨congrFun (congrFun (congrArg (fun t : Triple Nx Ny => t.1) h1) i) j, congrFun (congrFun (congrArg (fun t : Triple Nx Ny => t.2.1) h1) i) j,
    congrFun (congrFun (congrArg (fun t : Triple Nx Ny => t.2.2) h1) i) j⟩

theorem const_of_prev {n : ℕ} {f : Fin n → ℂ} (h : ∀ j, f j = f (Spec.prev j)) (j k : Fin n) : f j = f k := by
  have key : ∀ (m : ℕ) (hm : m < n), f ⟨m, hm⟩ = f ⟨0, by omega⟩ := by
    intro m
    induction m with
    | zero => intro hm; rfl
    | succ m ih =>
      intro hm
      rw [h, ← ih (by omega)]
      congr 1
      apply Fin.ext
      simp only [Spec.prev]
      rw [show m + 1 + (n - 1) = m + n by omega, Nat.add_mod_right, Nat.mod_eq_of_lt (by omega)]
  rw [key j j.2, key k k.2]

/-! ## Wide strips -/

/-- **C94, Ez, at least two cells across.** The fields of a device that does not depend on `y` do not depend on `y` either, `Hx` vanishes, and `Hy`, `Ez` solve Maxwell's equations in one
dimension. -/
theorem C94_wide_Ez_partial (env : Env) (he : env.Exact) (s : Sim Nx Ny) (hv : s.Valid) (hp : s.pol = .Ez) (hx : 1 < Nx) (hy : 1 < Ny) (hd : 0 < s.dl) (eps J : Fin Nx → ℂ) (hu : Spec.Uniform1 s eps J)
    (hdet : s.A.det ≠ 0) (avg : Bool) :
    ∃ hm e : Fin Nx → ℂ, (s.solve_fields env false avg).1 = .ok (fun _ _ => 0, fun i _ => hm i, fun i _ => e i) ∧
      Spec.Maxwell1Ez s.omega (MU_0 * s.L0) s.dl (Spec.sx s .f) (Spec.sx s .b) (fun i => (EPSILON_0 * s.L0 : ℝ) * eps i) J hm e := by
  obtain ⟨Hx, Hy, Ez, ht, h⟩ := C13_maxwell_Ez env he s hv hd hp hx hy (Or.inl hdet) avg
  have hun := uniform_fields env he s hv eps J hu hdet avg _ ht
  have ho : (s.omega : ℂ) ≠ 0 := by exact_mod_cast hv.omega_pos.ne'
  have hM : ((MU_0 * s.L0 : ℝ) : ℂ) ≠ 0 := by exact_mod_cast (mul_pos MU_0_pos hv.L0_pos).ne'
  let j0 : Fin Ny := ⟨0, by omega⟩
  have hE : ∀ i j, Ez i j = Ez i j0 := fun i j => const_of_prev (fun j => (hun i j).2.2) j j0
  have hH : ∀ i j, Hy i j = Hy i j0 := fun i j => const_of_prev (fun j => (hun i j).2.1) j j0
  have hX : ∀ i j, Hx i j = 0 := by
    intro i j
    have h1 := (h i j).1
    simp only [Spec.bwdY] at h1
    rw [hE i j, hE i (Spec.prev j), sub_self, zero_div, zero_div, neg_zero] at h1
    exact (mul_eq_zero.1 h1).resolve_left (mul_ne_zero (mul_ne_zero Complex.I_ne_zero ho) hM)
  refine ⟨fun i => Hy i j0, fun i => Ez i j0, ?_, fun i => ⟨?_, ?_⟩⟩
  · rw [ht]
    congr 1
    exact Prod.ext (by funext i j; exact hX i j) (Prod.ext (by funext i j; exact hH i j) (by funext i j; exact hE i j))
  · exact (h i j0).2.1
  · have h3 := (h i j0).2.2
    simp only [Spec.fwdX, Spec.fwdY, hX, sub_self, zero_div, sub_zero, hu.src, hu.eps_r] at h3
    exact h3

/-- **C94, Hz, at least two cells across** (`averaging=True`). -/
theorem C94_wide_Hz_partial (env : Env) (he : env.Exact) (s : Sim Nx Ny) (hv : s.Valid) (hp : s.pol = .Hz) (hx : 1 < Nx) (hy : 1 < Ny) (hd : 0 < s.dl) (eps J : Fin Nx → ℂ) (hu : Spec.Uniform1 s eps J)
    (hne : ∀ i, eps i ≠ 0 ∧ eps (Spec.prev i) + eps i ≠ 0) (hdet : s.A.det ≠ 0) :
    ∃ e hm : Fin Nx → ℂ, (s.solve_fields env false true).1 = .ok (fun _ _ => 0, fun i _ => e i, fun i _ => hm i) ∧
      Spec.Maxwell1Hz s.omega s.dl (Spec.sx s .f) (Spec.sx s .b) (fun i => (EPSILON_0 * s.L0 : ℝ) * ((eps (Spec.prev i) + eps i) / 2)) (fun _ => (MU_0 * s.L0 : ℝ)) J e hm := by
  have ho : (s.omega : ℂ) ≠ 0 := by exact_mod_cast hv.omega_pos.ne'
  have hE0 : ((EPSILON_0 * s.L0 : ℝ) : ℂ) ≠ 0 := by exact_mod_cast (mul_pos EPSILON_0_pos hv.L0_pos).ne'
  have hX1 : ∀ i j, Spec.edgeX (EPSILON_0 * s.L0) s.eps_r i j = (EPSILON_0 * s.L0 : ℝ) * ((eps (Spec.prev i) + eps i) / 2) := fun i j => by rw [Spec.edgeX, hu.eps_r, hu.eps_r]
  have hY1 : ∀ i j, Spec.edgeY (EPSILON_0 * s.L0) s.eps_r i j = (EPSILON_0 * s.L0 : ℝ) * eps i := fun i j => by rw [Spec.edgeY, hu.eps_r, hu.eps_r]; ring
  have hYne : ∀ i j, Spec.edgeY (EPSILON_0 * s.L0) s.eps_r i j ≠ 0 := fun i j => by rw [hY1]; exact mul_ne_zero hE0 (hne i).1
  obtain ⟨Ex, Ey, Hz, ht, h⟩ := C14_maxwell_Hz_partial env he s hv hd hp hx hy (Or.inl hdet) true (Or.inl rfl)
    (fun i j => ⟨by rw [hX1]; exact mul_ne_zero hE0 (div_ne_zero (hne i).2 two_ne_zero), hYne i j⟩)
  have hun := uniform_fields env he s hv eps J hu hdet true _ ht
  let j0 : Fin Ny := ⟨0, by omega⟩
  have hH : ∀ i j, Hz i j = Hz i j0 := fun i j => const_of_prev (fun j => (hun i j).2.2) j j0
  have hE : ∀ i j, Ey i j = Ey i j0 := fun i j => const_of_prev (fun j => (hun i j).2.1) j j0
  have hX : ∀ i j, Ex i j = 0 := by
    intro i j
    have h1 := (h i j).1
    simp only [Spec.bwdY] at h1
    rw [hH i j, hH i (Spec.prev j), sub_self, zero_div, zero_div] at h1
    exact (mul_eq_zero.1 h1).resolve_left (mul_ne_zero (mul_ne_zero Complex.I_ne_zero ho) (hYne i j))
  refine ⟨fun i => Ey i j0, fun i => Hz i j0, ?_, fun i => ⟨?_, ?_⟩⟩
  · rw [ht]
    congr 1
    exact Prod.ext (by funext i j; exact hX i j) (Prod.ext (by funext i j; exact hE i j) (by funext i j; exact hH i j))
  · have h2 := (h i j0).2.1
    rw [hX1] at h2
    exact h2
  · have h3 := (h i j0).2.2
    simp only [Spec.fwdX, Spec.fwdY, hX, sub_self, zero_div, zero_sub, hu.src] at h3
    exact h3

/-- The device of `s` on a strip of any width has the same fields. -/
theorem wide_solves_Ez (s : Sim Nx Ny) (hv : s.Valid) (hp : s.pol = .Ez) (hx : 1 < Nx) (hy : 1 < Ny) (eps J hm e : Fin Nx → ℂ) (hu : Spec.Uniform1 s eps J)
    (h : Spec.Maxwell1Ez s.omega (MU_0 * s.L0) s.dl (Spec.sx s .f) (Spec.sx s .b) (fun i => (EPSILON_0 * s.L0 : ℝ) * eps i) J hm e) :
    s.A *ᵥ flatten (fun i (_ : Fin Ny) => e i) = s.rhs := by
  have hM : ((MU_0 * s.L0 : ℝ) : ℂ) ≠ 0 := by exact_mod_cast (mul_pos MU_0_pos hv.L0_pos).ne'
  have hA : s.A = (1 / ((MU_0 * s.L0 : ℝ) : ℂ)) • (s.derivs.Dxf * s.derivs.Dxb) + (1 / ((MU_0 * s.L0 : ℝ) : ℂ)) • (s.derivs.Dyf * s.derivs.Dyb)
      + ((s.omega : ℂ) ^ 2) • spdiag (fun k => ((EPSILON_0 * s.L0 : ℝ) : ℂ) * flatten s.eps_r k) := by
    rw [hv.derivs_eq]
    exact hv.A_eq.trans (by rw [hp]; rfl)
  have hDy : s.derivs.Dyb *ᵥ flatten (fun i (_ : Fin Ny) => e i) = 0 := by
    rw [hv.derivs_eq, mkDerivs_Dyb _ _ _ _ _ hy]
    refine flat_ext fun i j => ?_
    simp only [flatten_pair, Spec.bwdY, sub_self, zero_div, Pi.zero_apply]
  have hDx : s.derivs.Dxb *ᵥ flatten (fun i (_ : Fin Ny) => e i) = (Complex.I * s.omega * (MU_0 * s.L0 : ℝ)) • flatten (fun i (_ : Fin Ny) => hm i) := by
    rw [hv.derivs_eq, mkDerivs_Dxb _ _ _ _ _ hx, hv.dL_eq (by omega) (by omega)]
    refine flat_ext fun i j => ?_
    simp only [Pi.smul_apply, smul_eq_mul, flatten_pair, Spec.bwdX, hv.xr]
    exact ((h i).1).symm
  have hDf : s.derivs.Dxf *ᵥ flatten (fun i (_ : Fin Ny) => hm i) = flatten (fun i (_ : Fin Ny) => J i + Complex.I * s.omega * ((EPSILON_0 * s.L0 : ℝ) * eps i) * e i) := by
    rw [hv.derivs_eq, mkDerivs_Dxf _ _ _ _ _ hx, hv.dL_eq (by omega) (by omega)]
    refine flat_ext fun i j => ?_
    simp only [flatten_pair, Spec.fwdX, hv.xr]
    rw [← (h i).2]
    simp only [Spec.sx]
    ring
  rw [hA, Matrix.add_mulVec, Matrix.add_mulVec, smul_mulVec, smul_mulVec, smul_mulVec, ← Matrix.mulVec_mulVec, ← Matrix.mulVec_mulVec, hDy, hDx, Matrix.mulVec_smul, hDf,
    Matrix.mulVec_zero, smul_zero, add_zero, spdiag_mulVec]
  refine flat_ext fun i j => ?_
  simp only [Pi.add_apply, Pi.smul_apply, smul_eq_mul, flatten_pair, Sim.rhs, hu.src, hu.eps_r]
  generalize ((MU_0 * s.L0 : ℝ) : ℂ) = m at *
  have hI := Complex.I_sq
  field_simp
  linear_combination (s.omega : ℂ) * ((EPSILON_0 * s.L0 : ℝ) : ℂ) * eps i * e i * s.omega * hI

theorem wide_solves_Hz (s : Sim Nx Ny) (hv : s.Valid) (hp : s.pol = .Hz) (hx : 1 < Nx) (hy : 1 < Ny) (eps J e hm : Fin Nx → ℂ) (hu : Spec.Uniform1 s eps J)
    (hne : ∀ i, eps (Spec.prev i) + eps i ≠ 0)
    (h : Spec.Maxwell1Hz s.omega s.dl (Spec.sx s .f) (Spec.sx s .b) (fun i => (EPSILON_0 * s.L0 : ℝ) * ((eps (Spec.prev i) + eps i) / 2)) (fun _ => (MU_0 * s.L0 : ℝ)) J e hm) :
    s.A *ᵥ flatten (fun i (_ : Fin Ny) => hm i) = s.rhs := by
  have hE0 : ((EPSILON_0 * s.L0 : ℝ) : ℂ) ≠ 0 := by exact_mod_cast (mul_pos EPSILON_0_pos hv.L0_pos).ne'
  set ex := flatten (Spec.edgeX (EPSILON_0 * s.L0) s.eps_r) with hex
  set ey := flatten (Spec.edgeY (EPSILON_0 * s.L0) s.eps_r) with hey
  have hA : s.A = s.derivs.Dxf * spdiag (fun k => 1 / ex k) * s.derivs.Dxb + s.derivs.Dyf * spdiag (fun k => 1 / ey k) * s.derivs.Dyb
      + ((s.omega : ℂ) ^ 2 * ((MU_0 * s.L0 : ℝ) : ℂ)) • (1 : Mat (Nx * Ny) ℂ) := by
    rw [hv.derivs_eq, hex, hey, edgeX_eq, edgeY_eq]
    exact hv.A_eq.trans (by rw [hp]; rfl)
  have hDy : s.derivs.Dyb *ᵥ flatten (fun i (_ : Fin Ny) => hm i) = 0 := by
    rw [hv.derivs_eq, mkDerivs_Dyb _ _ _ _ _ hy]
    refine flat_ext fun i j => ?_
    simp only [flatten_pair, Spec.bwdY, sub_self, zero_div, Pi.zero_apply]
  have hDx : spdiag (fun k => 1 / ex k) *ᵥ (s.derivs.Dxb *ᵥ flatten (fun i (_ : Fin Ny) => hm i)) = (-(Complex.I * s.omega)) • flatten (fun i (_ : Fin Ny) => e i) := by
    rw [hv.derivs_eq, mkDerivs_Dxb _ _ _ _ _ hx, hv.dL_eq (by omega) (by omega), spdiag_mulVec]
    refine flat_ext fun i j => ?_
    simp only [Pi.smul_apply, smul_eq_mul, flatten_pair, Spec.bwdX, hv.xr, hex, Spec.edgeX, hu.eps_r]
    have h1 := (h i).1
    simp only [Spec.sx] at h1
    have h2 : ((EPSILON_0 * s.L0 : ℝ) : ℂ) * ((eps (Spec.prev i) + eps i) / 2) ≠ 0 := mul_ne_zero hE0 (div_ne_zero (hne i) two_ne_zero)
    rw [one_div, inv_mul_eq_iff_eq_mul₀ h2]
    linear_combination h1
  have hDf : s.derivs.Dxf *ᵥ flatten (fun i (_ : Fin Ny) => e i) = flatten (fun i (_ : Fin Ny) => -(J i + Complex.I * s.omega * (MU_0 * s.L0 : ℝ) * hm i)) := by
    rw [hv.derivs_eq, mkDerivs_Dxf _ _ _ _ _ hx, hv.dL_eq (by omega) (by omega)]
    refine flat_ext fun i j => ?_
    simp only [flatten_pair, Spec.fwdX, hv.xr]
    rw [← (h i).2]
    simp only [Spec.sx]
    ring
  rw [hA, Matrix.add_mulVec, Matrix.add_mulVec, smul_mulVec, ← Matrix.mulVec_mulVec, ← Matrix.mulVec_mulVec, ← Matrix.mulVec_mulVec, ← Matrix.mulVec_mulVec, hDy, hDx, Matrix.mulVec_smul, hDf,
    Matrix.mulVec_zero, Matrix.mulVec_zero, add_zero, Matrix.one_mulVec]
  refine flat_ext fun i j => ?_
  simp only [Pi.add_apply, Pi.smul_apply, smul_eq_mul, flatten_pair, Sim.rhs, hu.src]
  have hI := Complex.I_sq
  linear_combination (s.omega : ℂ) ^ 2 * ((MU_0 * s.L0 : ℝ) : ℂ) * hm i * hI

theorem out_of_plane (env : Env) (he : env.Exact) (s : Sim Nx Ny) (hdet : s.A.det ≠ 0) (avg : Bool) (t : Triple Nx Ny) (ht : (s.solve_fields env false avg).1 = .ok t) :
    s.A *ᵥ flatten t.2.2 = s.rhs := by
  have h1 : s.in_plane avg s.eps_r (solver_direct env s.A s.rhs) = t := by
    simp only [Sim.solve_fields, if_true] at ht
    exact Except.ok.inj ht
  have h3 : t.2.2 = unflatten (solver_direct env s.A s.rhs) := by
    rw [← h1, Sim.in_plane]
    rcases s.pol <;> rfl
  rw [h3, flatten_unflatten]
  exact solver_direct_spec he (Or.inl hdet)

/-- **C94, the width does not matter** once it is at least two cells: the fields of two such strips agree. -/
theorem C94_width_partial (env : Env) (he : env.Exact) (s : Sim Nx M) (s' : Sim Nx M') (hv : s.Valid) (hv' : s'.Valid) (hx : 1 < Nx) (hM : 1 < M) (hM' : 1 < M') (hd : 0 < s.dl)
    (hL : s'.L0 = s.L0) (ho : s'.omega = s.omega) (hdl : s'.dl = s.dl) (hN : s'.NPML = s.NPML) (hp : s'.pol = s.pol) (eps J : Fin Nx → ℂ)
    (hu : Spec.Uniform1 s eps J) (hu' : Spec.Uniform1 s' eps J) (hne : ∀ i, eps i ≠ 0 ∧ eps (Spec.prev i) + eps i ≠ 0) (hdet : s.A.det ≠ 0) (hdet' : s'.A.det ≠ 0) :
    ∃ a b c : Fin Nx → ℂ, (s.solve_fields env false true).1 = .ok (fun i _ => a i, fun i _ => b i, fun i _ => c i) ∧
      (s'.solve_fields env false true).1 = .ok (fun i _ => a i, fun i _ => b i, fun i _ => c i) := by
  have ho0 : (s.omega : ℂ) ≠ 0 := by exact_mod_cast hv.omega_pos.ne'
  have hE0 : ((EPSILON_0 * s.L0 : ℝ) : ℂ) ≠ 0 := by exact_mod_cast (mul_pos EPSILON_0_pos hv.L0_pos).ne'
  have hM0 : ((MU_0 * s.L0 : ℝ) : ℂ) ≠ 0 := by exact_mod_cast (mul_pos MU_0_pos hv.L0_pos).ne'
  have hsx : ∀ d, Spec.sx s' d = Spec.sx s d := fun d => by rw [Spec.sx, Spec.sx, hL, ho, hdl, hN]
  have hz := fun t => out_of_plane env he s hdet true t
  rcases hpol : s.pol
  · obtain ⟨hm, e, ht, h⟩ := C94_wide_Ez_partial env he s hv hpol hx hM hd eps J hu hdet true
    obtain ⟨hm', e', ht', h'⟩ := C94_wide_Ez_partial env he s' hv' (hp.trans hpol) hx hM' (by rw [hdl]; exact hd) eps J hu' hdet' true
    rw [ho, hL, hdl, hsx, hsx] at h'
    have h1 := wide_solves_Ez s hv hpol hx hM eps J hm' e' hu h'
    have h2 := mulVec_unique hdet ((hz _ ht).trans h1.symm)
    have h3 : e = e' := funext fun i => congrFun (congrFun (flatten_injective h2) i) ⟨0, by omega⟩
    subst h3
    have h4 : hm = hm' := funext fun i => mul_left_cancel₀ (mul_ne_zero (mul_ne_zero Complex.I_ne_zero ho0) hM0) ((h i).1.trans (h' i).1.symm)
    subst h4
    exact ⟨0, hm, e, ht, ht'⟩
  · obtain ⟨e, hm, ht, h⟩ := C94_wide_Hz_partial env he s hv hpol hx hM hd eps J hu hne hdet
    obtain ⟨e', hm', ht', h'⟩ := C94_wide_Hz_partial env he s' hv' (hp.trans hpol) hx hM' (by rw [hdl]; exact hd) eps J hu' hne hdet'
    rw [ho, hL, hdl, hsx, hsx] at h'
    have h1 := wide_solves_Hz s hv hpol hx hM eps J e' hm' hu (fun i => (hne i).2) h'
    have h2 := mulVec_unique hdet ((hz _ ht).trans h1.symm)
    have h3 : hm = hm' := funext fun i => congrFun (congrFun (flatten_injective h2) i) ⟨0, by omega⟩
    subst h3
    have h4 : e = e' := funext fun i => mul_left_cancel₀ (mul_ne_zero (mul_ne_zero Complex.I_ne_zero ho0) (mul_ne_zero hE0 (div_ne_zero (hne i).2 two_ne_zero))) ((h i).1.trans (h' i).1.symm)
    subst h4
    exact ⟨0, e, hm, ht, ht'⟩

/-! ## One cell across -/

/-- **C94, Ez, one cell across.** `Hy` and `Ez` solve Maxwell's equations in one dimension for the permittivity `ε + 1/(ω²μ)` instead of `ε`, and `Hx` is `-Ez/(iωμ)` instead of 0. -/
theorem C94_single_Ez (env : Env) (he : env.Exact) (s : Sim Nx 1) (hv : s.Valid) (hp : s.pol = .Ez) (hx : 1 < Nx) (eps J : Fin Nx → ℂ) (hu : Spec.Uniform1 s eps J)
    (hdet : s.A.det ≠ 0 ∨ s.src = 0) (avg : Bool) :
    ∃ hm e : Fin Nx → ℂ, (s.solve_fields env false avg).1 = .ok (fun i _ => -e i / (Complex.I * s.omega * (MU_0 * s.L0 : ℝ)), fun i _ => hm i, fun i _ => e i) ∧
      Spec.Maxwell1Ez s.omega (MU_0 * s.L0) s.dl (Spec.sx s .f) (Spec.sx s .b) (fun i => (EPSILON_0 * s.L0 : ℝ) * eps i + 1 / (s.omega ^ 2 * (MU_0 * s.L0 : ℝ))) J hm e := by
  have ho : (s.omega : ℂ) ≠ 0 := by exact_mod_cast hv.omega_pos.ne'
  have hM : ((MU_0 * s.L0 : ℝ) : ℂ) ≠ 0 := by exact_mod_cast (mul_pos MU_0_pos hv.L0_pos).ne'
  have hI := Complex.I_ne_zero
  obtain ⟨Hx, Hy, Ez, ht, h1, h2, h3⟩ := C13_maxwell_Ez_operators env he s hv hp hdet avg
  rw [hv.derivs_eq] at h1 h2 h3
  rw [(mkDerivs_y_one _ _ _ hu.NPML _ _).1, Matrix.one_mulVec] at h1
  rw [mkDerivs_Dxb _ _ _ _ _ hx, hv.dL_eq (by omega) (by omega)] at h2
  rw [(mkDerivs_y_one _ _ _ hu.NPML _ _).2, Matrix.one_mulVec, mkDerivs_Dxf _ _ _ _ _ hx, hv.dL_eq (by omega) (by omega)] at h3
  have k1 : ∀ i, Complex.I * s.omega * (MU_0 * s.L0 : ℝ) * Hx i 0 = -Ez i 0 := fun i => by
    have := congrFun h1 (finProdFinEquiv (i, 0))
    simpa only [Pi.smul_apply, smul_eq_mul, Pi.neg_apply, flatten_pair] using this
  have k2 : ∀ i, Complex.I * s.omega * (MU_0 * s.L0 : ℝ) * Hy i 0 = Spec.bwdX s.dl Ez i 0 / create_sfactor s.xrange s.L0 .b s.omega Nx s.NPML.1 i := fun i => by
    have := congrFun h2 (finProdFinEquiv (i, 0))
    simpa only [Pi.smul_apply, smul_eq_mul, flatten_pair] using this
  have k3 : ∀ i, Spec.fwdX s.dl Hy i 0 / create_sfactor s.xrange s.L0 .f s.omega Nx s.NPML.1 i - Hx i 0 - Complex.I * s.omega * ((EPSILON_0 * s.L0 : ℝ) * s.eps_r i 0) * Ez i 0 = s.src i 0 := fun i => by
    have := congrFun h3 (finProdFinEquiv (i, 0))
    simpa only [Pi.sub_apply, flatten_pair] using this
  have hHx : ∀ i, Hx i 0 = -Ez i 0 / (Complex.I * s.omega * (MU_0 * s.L0 : ℝ)) := fun i => by
    rw [eq_div_iff (mul_ne_zero (mul_ne_zero hI ho) hM), ← k1 i, mul_comm]
  refine ⟨fun i => Hy i 0, fun i => Ez i 0, ?_, fun i => ⟨?_, ?_⟩⟩
  · rw [ht]
    congr 1
    exact Prod.ext (by funext i j; rw [Subsingleton.elim j 0]; exact hHx i)
      (Prod.ext (by funext i j; rw [Subsingleton.elim j 0]) (by funext i j; rw [Subsingleton.elim j 0]))
  · have := k2 i
    rw [hv.xr] at this
    exact this
  · have := k3 i
    rw [hv.xr, hHx i, hu.eps_r, hu.src] at this
    rw [← this]
    have e : -Ez i 0 / (Complex.I * s.omega * (MU_0 * s.L0 : ℝ)) = Complex.I * s.omega * (1 / (s.omega ^ 2 * (MU_0 * s.L0 : ℝ))) * Ez i 0 := by
      generalize ((MU_0 * s.L0 : ℝ) : ℂ) = m at *
      generalize Ez i 0 = z
      field_simp
      rw [Complex.I_sq]
      ring
    rw [e]
    show Spec.fwdX s.dl Hy i 0 / _ - _ * Ez i 0 = _
    simp only [Spec.sx]
    ring

/-- **C94, Ez, negation.** On a grid one cell across with a nonzero source the returned fields never solve Maxwell's equations in one dimension for the permittivity of the device. -/
theorem C94_single_Ez_false (env : Env) (he : env.Exact) (s : Sim Nx 1) (hv : s.Valid) (hp : s.pol = .Ez) (hx : 1 < Nx) (eps J : Fin Nx → ℂ) (hu : Spec.Uniform1 s eps J)
    (hdet : s.A.det ≠ 0) (hJ : s.src ≠ 0) (avg : Bool) :
    ∃ Hx hm e, (s.solve_fields env false avg).1 = .ok (Hx, fun i _ => hm i, fun i _ => e i) ∧ Hx ≠ 0 ∧
      ¬ Spec.Maxwell1Ez s.omega (MU_0 * s.L0) s.dl (Spec.sx s .f) (Spec.sx s .b) (fun i => (EPSILON_0 * s.L0 : ℝ) * eps i) J hm e := by
  have ho : (s.omega : ℂ) ≠ 0 := by exact_mod_cast hv.omega_pos.ne'
  have hM : ((MU_0 * s.L0 : ℝ) : ℂ) ≠ 0 := by exact_mod_cast (mul_pos MU_0_pos hv.L0_pos).ne'
  have hI := Complex.I_ne_zero
  obtain ⟨hm, e, ht, h⟩ := C94_single_Ez env he s hv hp hx eps J hu (Or.inl hdet) avg
  have key : e ≠ 0 := by
    intro h0
    refine hJ ?_
    funext i j
    have hh : ∀ i, hm i = 0 := fun i => by
      have := (h i).1
      rw [h0] at this
      simp only [Pi.zero_apply, sub_self, zero_div] at this
      exact (mul_eq_zero.1 this).resolve_left (mul_ne_zero (mul_ne_zero hI ho) hM)
    have := (h i).2
    rw [hh, hh, h0] at this
    simp only [Pi.zero_apply, sub_self, zero_div, mul_zero] at this
    rw [hu.src, ← this]
    rfl
  obtain ⟨i, hi⟩ := Function.ne_iff.1 key
  refine ⟨_, hm, e, ht, fun h0 => ?_, fun h' => ?_⟩
  · have := congrFun (congrFun h0 i) 0
    simp only [Pi.zero_apply] at this hi
    rw [div_eq_zero_iff, neg_eq_zero] at this
    exact this.elim hi (mul_ne_zero (mul_ne_zero hI ho) hM)
  · have h1 := (h i).2
    have h2 := (h' i).2
    have h3 : Complex.I * s.omega * (1 / (s.omega ^ 2 * (MU_0 * s.L0 : ℝ))) * e i = 0 := by linear_combination h2 - h1
    exact mul_ne_zero (mul_ne_zero (mul_ne_zero hI ho) (div_ne_zero one_ne_zero (mul_ne_zero (pow_ne_zero 2 ho) hM))) hi h3

/-- **C94, Hz, one cell across** (`averaging=True`). `Ey` and `Hz` solve Maxwell's equations in one dimension for the permeability `μ + 1/(ω²ε)` instead of `μ`, and `Ex` is `Hz/(iωε)` instead of 0. -/
theorem C94_single_Hz (env : Env) (he : env.Exact) (s : Sim Nx 1) (hv : s.Valid) (hp : s.pol = .Hz) (hx : 1 < Nx) (eps J : Fin Nx → ℂ) (hu : Spec.Uniform1 s eps J)
    (hne : ∀ i, eps i ≠ 0 ∧ eps (Spec.prev i) + eps i ≠ 0) (hdet : s.A.det ≠ 0 ∨ s.src = 0) :
    ∃ e hm : Fin Nx → ℂ, (s.solve_fields env false true).1 = .ok (fun i _ => hm i / (Complex.I * s.omega * ((EPSILON_0 * s.L0 : ℝ) * eps i)), fun i _ => e i, fun i _ => hm i) ∧
      Spec.Maxwell1Hz s.omega s.dl (Spec.sx s .f) (Spec.sx s .b) (fun i => (EPSILON_0 * s.L0 : ℝ) * ((eps (Spec.prev i) + eps i) / 2))
        (fun i => (MU_0 * s.L0 : ℝ) + 1 / (s.omega ^ 2 * ((EPSILON_0 * s.L0 : ℝ) * eps i))) J e hm := by
  have ho : (s.omega : ℂ) ≠ 0 := by exact_mod_cast hv.omega_pos.ne'
  have hE0 : ((EPSILON_0 * s.L0 : ℝ) : ℂ) ≠ 0 := by exact_mod_cast (mul_pos EPSILON_0_pos hv.L0_pos).ne'
  have hI := Complex.I_ne_zero
  have hX1 : ∀ i j, Spec.edgeX (EPSILON_0 * s.L0) s.eps_r i j = (EPSILON_0 * s.L0 : ℝ) * ((eps (Spec.prev i) + eps i) / 2) := fun i j => by rw [Spec.edgeX, hu.eps_r, hu.eps_r]
  have hY1 : ∀ i j, Spec.edgeY (EPSILON_0 * s.L0) s.eps_r i j = (EPSILON_0 * s.L0 : ℝ) * eps i := fun i j => by rw [Spec.edgeY, hu.eps_r, hu.eps_r]; ring
  obtain ⟨Ex, Ey, Hz, ht, h1, h2, h3⟩ := C14_maxwell_Hz_operators_partial env he s hv hp hdet true (Or.inl rfl)
  rw [hv.derivs_eq] at h1 h2 h3
  rw [(mkDerivs_y_one _ _ _ hu.NPML _ _).1, Matrix.one_mulVec] at h1
  rw [mkDerivs_Dxb _ _ _ _ _ hx, hv.dL_eq (by omega) (by omega)] at h2
  rw [(mkDerivs_y_one _ _ _ hu.NPML _ _).2, Matrix.one_mulVec, mkDerivs_Dxf _ _ _ _ _ hx, hv.dL_eq (by omega) (by omega)] at h3
  have k1 : ∀ i, Complex.I * s.omega * ((EPSILON_0 * s.L0 : ℝ) * eps i) * Ex i 0 = Hz i 0 := fun i => by
    have := h1 (finProdFinEquiv (i, 0))
    simp only [flatten_pair, hY1] at this
    exact this (mul_ne_zero hE0 (hne i).1)
  have k2 : ∀ i, Complex.I * s.omega * ((EPSILON_0 * s.L0 : ℝ) * ((eps (Spec.prev i) + eps i) / 2)) * Ey i 0 = -(Spec.bwdX s.dl Hz i 0 / create_sfactor s.xrange s.L0 .b s.omega Nx s.NPML.1 i) := fun i => by
    have := h2 (finProdFinEquiv (i, 0))
    simp only [flatten_pair, hX1] at this
    exact this (mul_ne_zero hE0 (div_ne_zero (hne i).2 two_ne_zero))
  have k3 : ∀ i, Ex i 0 - Spec.fwdX s.dl Ey i 0 / create_sfactor s.xrange s.L0 .f s.omega Nx s.NPML.1 i - Complex.I * s.omega * (MU_0 * s.L0 : ℝ) * Hz i 0 = s.src i 0 := fun i => by
    have := congrFun h3 (finProdFinEquiv (i, 0))
    simpa only [Pi.sub_apply, Pi.smul_apply, smul_eq_mul, flatten_pair] using this
  have hEx : ∀ i, Ex i 0 = Hz i 0 / (Complex.I * s.omega * ((EPSILON_0 * s.L0 : ℝ) * eps i)) := fun i => by
    rw [eq_div_iff (mul_ne_zero (mul_ne_zero hI ho) (mul_ne_zero hE0 (hne i).1)), ← k1 i, mul_comm]
  refine ⟨fun i => Ey i 0, fun i => Hz i 0, ?_, fun i => ⟨?_, ?_⟩⟩
  · rw [ht]
    congr 1
    exact Prod.ext (by funext i j; rw [Subsingleton.elim j 0]; exact hEx i)
      (Prod.ext (by funext i j; rw [Subsingleton.elim j 0]) (by funext i j; rw [Subsingleton.elim j 0]))
  · have := k2 i
    rw [hv.xr] at this
    exact this
  · have := k3 i
    rw [hv.xr, hEx i, hu.src] at this
    rw [← this]
    have hne0 := (hne i).1
    have e : Hz i 0 / (Complex.I * s.omega * ((EPSILON_0 * s.L0 : ℝ) * eps i)) = -(Complex.I * s.omega * (1 / (s.omega ^ 2 * ((EPSILON_0 * s.L0 : ℝ) * eps i))) * Hz i 0) := by
      generalize ((EPSILON_0 * s.L0 : ℝ) : ℂ) = m at *
      generalize Hz i 0 = z
      generalize eps i = w at *
      field_simp
      rw [Complex.I_sq]
      ring
    rw [e]
    show -(Spec.fwdX s.dl Ey i 0 / _) - _ * Hz i 0 = _
    simp only [Spec.sx]
    ring

/-- **C94, Hz, negation.** -/
theorem C94_single_Hz_false (env : Env) (he : env.Exact) (s : Sim Nx 1) (hv : s.Valid) (hp : s.pol = .Hz) (hx : 1 < Nx) (eps J : Fin Nx → ℂ) (hu : Spec.Uniform1 s eps J)
    (hne : ∀ i, eps i ≠ 0 ∧ eps (Spec.prev i) + eps i ≠ 0) (hdet : s.A.det ≠ 0) (hJ : s.src ≠ 0) :
    ∃ Ex e hm, (s.solve_fields env false true).1 = .ok (Ex, fun i _ => e i, fun i _ => hm i) ∧ Ex ≠ 0 ∧
      ¬ Spec.Maxwell1Hz s.omega s.dl (Spec.sx s .f) (Spec.sx s .b) (fun i => (EPSILON_0 * s.L0 : ℝ) * ((eps (Spec.prev i) + eps i) / 2)) (fun _ => (MU_0 * s.L0 : ℝ)) J e hm := by
  have ho : (s.omega : ℂ) ≠ 0 := by exact_mod_cast hv.omega_pos.ne'
  have hE0 : ((EPSILON_0 * s.L0 : ℝ) : ℂ) ≠ 0 := by exact_mod_cast (mul_pos EPSILON_0_pos hv.L0_pos).ne'
  have hI := Complex.I_ne_zero
  obtain ⟨e, hm, ht, h⟩ := C94_single_Hz env he s hv hp hx eps J hu hne (Or.inl hdet)
  have key : hm ≠ 0 := by
    intro h0
    refine hJ ?_
    funext i j
    have hh : ∀ i, e i = 0 := fun i => by
      have := (h i).1
      rw [h0] at this
      simp only [Pi.zero_apply, sub_self, zero_div, neg_zero] at this
      exact (mul_eq_zero.1 this).resolve_left (mul_ne_zero (mul_ne_zero hI ho) (mul_ne_zero hE0 (div_ne_zero (hne i).2 two_ne_zero)))
    have := (h i).2
    rw [hh, hh, h0] at this
    simp only [Pi.zero_apply, sub_self, zero_div, mul_zero, neg_zero] at this
    rw [hu.src, ← this]
    rfl
  obtain ⟨i, hi⟩ := Function.ne_iff.1 key
  refine ⟨_, e, hm, ht, fun h0 => ?_, fun h' => ?_⟩
  · have := congrFun (congrFun h0 i) 0
    simp only [Pi.zero_apply] at this hi
    rw [div_eq_zero_iff] at this
    exact this.elim hi (mul_ne_zero (mul_ne_zero hI ho) (mul_ne_zero hE0 (hne i).1))
  · have h1 := (h i).2
    have h2 := (h' i).2
    have h3 : Complex.I * s.omega * (1 / (s.omega ^ 2 * ((EPSILON_0 * s.L0 : ℝ) * eps i))) * hm i = 0 := by linear_combination h2 - h1
    exact mul_ne_zero (mul_ne_zero (mul_ne_zero hI ho) (div_ne_zero one_ne_zero (mul_ne_zero (pow_ne_zero 2 ho) (mul_ne_zero hE0 (hne i).1)))) hi h3

/-! ## Concrete cases -/

/-- A strip without layers, of two different media along `x`, driven along its first row. -/
noncomputable def stripEps (Nx : ℕ) : Fin Nx → ℂ := fun i => if i.val = 0 then 2 else 1
noncomputable def stripSrc (Nx : ℕ) : Fin Nx → ℂ := fun i => if i.val = 0 then 1 else 0

noncomputable def stripSim (Nx Ny : ℕ) : Sim Nx Ny := fsim 0 (fun i _ => stripEps Nx i) (fun i _ => stripSrc Nx i)

theorem stripSim_uniform : Spec.Uniform1 (stripSim Nx Ny) (stripEps Nx) (stripSrc Nx) := ⟨fun _ _ => rfl, fun _ _ => rfl, rfl⟩

theorem stripEps_ne (i : Fin Nx) : stripEps Nx i ≠ 0 ∧ stripEps Nx (Spec.prev i) + stripEps Nx i ≠ 0 := by
  rw [stripEps, stripEps]
  constructor
  · split_ifs <;> norm_num
  · split_ifs <;> norm_num

theorem stripSim_det (hx : 1 < Nx) (hy : 1 < Ny) : (stripSim Nx Ny).A.det ≠ 0 := fsim_det hx hy 0 _ _ fun i j => by
  rw [stripEps]
  split_ifs <;> norm_num

example (env : Env) (he : env.Exact) (hy : 1 < Ny) : ∃ hm e : Fin 3 → ℂ, ((stripSim 3 Ny).solve_fields env false false).1 = .ok (fun _ _ => 0, fun i _ => hm i, fun i _ => e i) :=
  (C94_wide_Ez_partial env he (stripSim 3 Ny) (fsim_valid _ _ _) rfl (by norm_num) hy (fsim_dl_pos _ _ _) _ _ stripSim_uniform (stripSim_det (by norm_num) hy) false).imp
    fun _ h => h.imp fun _ h => h.1

example (env : Env) (he : env.Exact) : ∃ a b c : Fin 5 → ℂ, ((stripSim 5 2).solve_fields env false true).1 = .ok (fun i _ => a i, fun i _ => b i, fun i _ => c i) ∧
    ((stripSim 5 9).solve_fields env false true).1 = .ok (fun i _ => a i, fun i _ => b i, fun i _ => c i) :=
  C94_width_partial env he (stripSim 5 2) (stripSim 5 9) (fsim_valid _ _ _) (fsim_valid _ _ _) (by norm_num) (by norm_num) (by norm_num) (fsim_dl_pos _ _ _) rfl rfl rfl rfl rfl _ _
    stripSim_uniform stripSim_uniform stripEps_ne (stripSim_det (by norm_num) (by norm_num)) (stripSim_det (by norm_num) (by norm_num))

/-- The strip one cell across: the system matrix contains an extra `1/μ`. -/
theorem stripSim_one_apply (f : Grid 2 1 ℂ) : (stripSim 2 1).A *ᵥ flatten f = flatten fun i j =>
    2 * (f (1 - i) j - f i j) / 9 + (1 / (ETA_0 : ℂ) ^ 2 + stripEps 2 i) * f i j := by
  have hE : (ETA_0 : ℂ) ≠ 0 := by exact_mod_cast ETA_0_pos.ne'
  have hdL : dL 2 1 ((0 : ℝ), ((2 : ℕ) : ℝ) * (3 / ETA_0)) ((0 : ℝ), ((1 : ℕ) : ℝ) * (3 / ETA_0)) = (3 / ETA_0, 3 / ETA_0) :=
    (fsim_valid 0 (fun i (_ : Fin 1) => stripEps 2 i) (fun i _ => stripSrc 2 i)).dL_eq (by omega) (by omega)
  simp only [stripSim, fsim, construct_A, Matrix.add_mulVec, smul_mulVec, ← Matrix.mulVec_mulVec, mkDerivs_Dxb _ _ _ _ _ (show 1 < 2 by norm_num),
    mkDerivs_Dxf _ _ _ _ _ (show 1 < 2 by norm_num), (mkDerivs_y_one _ _ ((0, 0) : ℕ × ℕ) rfl _ _).1, (mkDerivs_y_one _ _ ((0, 0) : ℕ × ℕ) rfl _ _).2, Matrix.one_mulVec, spdiag_mulVec, sfactor_zero, hdL,
    eps0_norm, mu0_norm]
  refine flat_ext fun i j => ?_
  simp only [Pi.add_apply, Pi.smul_apply, flatten_pair, Spec.fwdX, Spec.bwdX, smul_eq_mul, next2, sub_sub_cancel]
  push_cast
  field_simp
  ring

theorem stripSim_one_det : (stripSim 2 1).A.det ≠ 0 := by
  refine det_ne_zero_of_inj fun v h => ?_
  obtain ⟨f, rfl⟩ : ∃ f : Grid 2 1 ℂ, flatten f = v := ⟨unflatten v, flatten_unflatten v⟩
  rw [stripSim_one_apply] at h
  have h0 := congrFun h (finProdFinEquiv (0, 0))
  have h1 := congrFun h (finProdFinEquiv (1, 0))
  simp only [flatten_pair, Pi.zero_apply, stripEps, Fin.val_zero, Fin.val_one, if_true, if_neg one_ne_zero, sub_zero, sub_self] at h0 h1
  have hq : 0 < 1 / ETA_0 ^ 2 := one_div_pos.2 (pow_pos ETA_0_pos 2)
  have e : (1 / (ETA_0 : ℂ) ^ 2) = ((1 / ETA_0 ^ 2 : ℝ) : ℂ) := by push_cast; rfl
  rw [e] at h0 h1
  generalize 1 / ETA_0 ^ 2 = q at *
  have k : ((((q + 1) * (q + 2) - 2 / 9 * (q + 1) - 2 / 9 * (q + 2)) : ℝ) : ℂ) * f 0 0 = 0 := by
    push_cast
    linear_combination (q + 1 - 2 / 9) * h0 - 2 / 9 * h1
  have k0 : f 0 0 = 0 := by
    refine (mul_eq_zero.1 k).resolve_left ?_
    have : 0 < (q + 1) * (q + 2) - 2 / 9 * (q + 1) - 2 / 9 * (q + 2) := by nlinarith
    exact_mod_cast this.ne'
  have k1 : f 1 0 = 0 := by
    rw [k0] at h0
    linear_combination 9 / 2 * h0
  funext l
  obtain ⟨⟨i, j⟩, rfl⟩ := finProdFinEquiv.surjective l
  rw [flatten_pair, Subsingleton.elim j 0]
  fin_cases i
  · exact k0
  · exact k1

example (env : Env) (he : env.Exact) : ∃ (Hx : Grid 2 1 ℂ) (hm e : Fin 2 → ℂ), ((stripSim 2 1).solve_fields env).1 = .ok (Hx, fun i _ => hm i, fun i _ => e i) ∧ Hx ≠ 0 :=
  let ⟨Hx, hm, e, h, hne, _⟩ := C94_single_Ez_false env he (stripSim 2 1) (fsim_valid _ _ _) rfl (by norm_num) _ _ stripSim_uniform stripSim_one_det
    (fun h => by have := congrFun (congrFun h 0) 0; simp [stripSim, fsim, stripSrc] at this) false
  ⟨Hx, hm, e, h, hne⟩

/-! ### Polarisation Hz -/

theorem hsim_uniform : Spec.Uniform1 (hsim Nx Ny fun i _ => stripSrc Nx i) (fun _ => 1) (stripSrc Nx) := ⟨fun _ _ => rfl, fun _ _ => rfl, rfl⟩

example (env : Env) (he : env.Exact) (hy : 1 < Ny) : ∃ e hm : Fin 3 → ℂ, ((hsim 3 Ny fun i _ => stripSrc 3 i).solve_fields env false true).1 = .ok (fun _ _ => 0, fun i _ => e i, fun i _ => hm i) :=
  (C94_wide_Hz_partial env he _ (hsim_valid _) rfl (by norm_num) hy (div_pos (by norm_num) ETA_0_pos) _ _ hsim_uniform (fun _ => by norm_num) (hsim_det (by norm_num) hy _)).imp
    fun _ h => h.imp fun _ h => h.1

theorem hsim_one_apply (src f : Grid 2 1 ℂ) : (hsim 2 1 src).A *ᵥ flatten f = flatten fun i j =>
    2 * (ETA_0 : ℂ) ^ 2 * (f (1 - i) j - f i j) / 9 + (1 + (ETA_0 : ℂ) ^ 2) * f i j := by
  have hE : (ETA_0 : ℂ) ≠ 0 := by exact_mod_cast ETA_0_pos.ne'
  have hdL : dL 2 1 ((0 : ℝ), ((2 : ℕ) : ℝ) * (3 / ETA_0)) ((0 : ℝ), ((1 : ℕ) : ℝ) * (3 / ETA_0)) = (3 / ETA_0, 3 / ETA_0) :=
    (hsim_valid src).dL_eq (by omega) (by omega)
  have hs : ∀ w : Axis, (spdiag fun k => 1 / (flatten (grid_average (fun (_ : Fin 2) (_ : Fin 1) => ((1 : ℝ) : ℂ)) w) : Vec (2 * 1) ℂ) k) = 1 := by
    intro w
    have : (fun k => 1 / (flatten (grid_average (fun (_ : Fin 2) (_ : Fin 1) => ((1 : ℝ) : ℂ)) w) : Vec (2 * 1) ℂ) k) = 1 := by
      funext k
      cases w <;> simp [flatten, grid_average]
    rw [this]
    exact Matrix.diagonal_one
  simp only [hsim, construct_A, if_true, eps0_norm, mu0_norm, hs, mul_one, Matrix.add_mulVec, smul_mulVec, ← Matrix.mulVec_mulVec, mkDerivs_Dxb _ _ _ _ _ (show 1 < 2 by norm_num),
    mkDerivs_Dxf _ _ _ _ _ (show 1 < 2 by norm_num), (mkDerivs_y_one _ _ ((0, 0) : ℕ × ℕ) rfl _ _).1, (mkDerivs_y_one _ _ ((0, 0) : ℕ × ℕ) rfl _ _).2, Matrix.one_mulVec, sfactor_zero, hdL]
  refine flat_ext fun i j => ?_
  simp only [Pi.add_apply, Pi.smul_apply, flatten_pair, Spec.fwdX, Spec.bwdX, smul_eq_mul, next2, sub_sub_cancel]
  push_cast
  field_simp
  ring

theorem hsim_one_det (src : Grid 2 1 ℂ) : (hsim 2 1 src).A.det ≠ 0 := by
  refine det_ne_zero_of_inj fun v h => ?_
  obtain ⟨f, rfl⟩ : ∃ f : Grid 2 1 ℂ, flatten f = v := ⟨unflatten v, flatten_unflatten v⟩
  rw [hsim_one_apply] at h
  have h0 := congrFun h (finProdFinEquiv (0, 0))
  have h1 := congrFun h (finProdFinEquiv (1, 0))
  simp only [flatten_pair, Pi.zero_apply, sub_zero, sub_self] at h0 h1
  have hq : 0 < ETA_0 ^ 2 := pow_pos ETA_0_pos 2
  have e : ((ETA_0 : ℂ) ^ 2) = ((ETA_0 ^ 2 : ℝ) : ℂ) := by push_cast; rfl
  rw [e] at h0 h1
  generalize ETA_0 ^ 2 = q at *
  have hs : f 0 0 + f 1 0 = 0 := by
    have : ((1 + q : ℝ) : ℂ) * (f 0 0 + f 1 0) = 0 := by push_cast; linear_combination h0 + h1
    exact (mul_eq_zero.1 this).resolve_left (by exact_mod_cast (by linarith : (0 : ℝ) < 1 + q).ne')
  have k0 : f 0 0 = 0 := by
    have : ((1 + 5 / 9 * q : ℝ) : ℂ) * f 0 0 = 0 := by push_cast; linear_combination h0 - 2 * q / 9 * hs
    exact (mul_eq_zero.1 this).resolve_left (by exact_mod_cast (by linarith : (0 : ℝ) < 1 + 5 / 9 * q).ne')
  have k1 : f 1 0 = 0 := by linear_combination hs - k0
  funext l
  obtain ⟨⟨i, j⟩, rfl⟩ := finProdFinEquiv.surjective l
  rw [flatten_pair, Subsingleton.elim j 0]
  fin_cases i
  · exact k0
  · exact k1

example (env : Env) (he : env.Exact) : ∃ (Ex : Grid 2 1 ℂ) (e hm : Fin 2 → ℂ), ((hsim 2 1 fun i _ => stripSrc 2 i).solve_fields env false true).1 = .ok (Ex, fun i _ => e i, fun i _ => hm i) ∧ Ex ≠ 0 :=
  let ⟨Ex, e, hm, h, hne, _⟩ := C94_single_Hz_false env he _ (hsim_valid _) rfl (by norm_num) _ _ hsim_uniform (fun _ => by norm_num) (hsim_one_det _)
    (fun h => by have := congrFun (congrFun h 0) 0; simp [hsim, stripSrc] at this)
  ⟨Ex, e, hm, h, hne⟩

end Angler
