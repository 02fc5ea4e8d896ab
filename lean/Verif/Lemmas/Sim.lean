import Verif.Model.Simulation
import Verif.Lemmas.Linalg
import Verif.Spec.Maxwell

/-! # Well-formed simulations and the solved field -/

namespace Angler

open Matrix

variable {Nx Ny : ℕ}

/-- Invariant of `Simulation` objects: validated parameters, ranges as set by the constructor, and `A`, `derivs` built from the present permittivity.
`Sim.init` establishes it and every modelled method preserves it (`Props/SimState.lean`). -/
structure Sim.Valid (s : Sim Nx Ny) : Prop where
  L0_pos : 0 < s.L0
  omega_pos : 0 < s.omega
  xr : s.xrange = (0, Nx * s.dl)
  yr : s.yrange = (0, Ny * s.dl)
  A_eq : s.A = (construct_A s.omega s.xrange s.yrange s.eps_r s.NPML s.pol s.L0).1
  derivs_eq : s.derivs = mkDerivs s.omega s.xrange s.yrange Nx Ny s.NPML s.L0

theorem construct_A_derivs (omega L0 : ℝ) (NPML : ℕ × ℕ) (xr yr : ℝ × ℝ) (eps : Grid Nx Ny ℂ) (pol : Pol) (avg : Bool) :
    (construct_A omega xr yr eps NPML pol L0 avg).2 = mkDerivs omega xr yr Nx Ny NPML L0 := by
  cases pol <;> rfl

theorem solver_direct_spec {env : Env} (he : env.Exact) {n : ℕ} {A : Mat n ℂ} {b : Vec n ℂ} (h : A.det ≠ 0 ∨ b = 0) :
    A *ᵥ solver_direct env A b = b := by
  unfold solver_direct
  by_cases hb : b = 0
  · simp [hb]
  · rw [if_neg hb]
    exact he.solveC_spec A b (h.resolve_right hb)

/-- Uniqueness of solutions of a nonsingular system. -/
theorem mulVec_unique {n : ℕ} {A : Mat n ℂ} (hA : A.det ≠ 0) {x y : Vec n ℂ} (h : A *ᵥ x = A *ᵥ y) : x = y := by
  have hu : IsUnit A.det := isUnit_iff_ne_zero.2 hA
  have := congrArg (fun v => A⁻¹ *ᵥ v) h
  simpa [Matrix.mulVec_mulVec, Matrix.nonsing_inv_mul _ hu] using this

theorem solver_direct_unique {env : Env} (he : env.Exact) {n : ℕ} {A : Mat n ℂ} {b x : Vec n ℂ} (hA : A.det ≠ 0) (hx : A *ᵥ x = b) :
    solver_direct env A b = x :=
  mulVec_unique hA (by rw [solver_direct_spec he (Or.inl hA), hx])

/-- The derivative matrices in terms of difference quotients. -/
theorem mkDerivs_Dxf (omega L0 : ℝ) (NPML : ℕ × ℕ) (xr yr : ℝ × ℝ) (h : 1 < Nx) (f : Grid Nx Ny ℂ) :
    (mkDerivs omega xr yr Nx Ny NPML L0).Dxf *ᵥ flatten f =
      flatten fun i j => Spec.fwdX (dL Nx Ny xr yr).1 f i j / create_sfactor xr L0 .f omega Nx NPML.1 i := by
  simp only [mkDerivs, S_create, ← Matrix.mulVec_mulVec, createDws_xf _ _ h, spdiag_mulVec]
  refine flat_ext fun i j => ?_
  simp only [flatten_pair]; ring

theorem mkDerivs_Dxb (omega L0 : ℝ) (NPML : ℕ × ℕ) (xr yr : ℝ × ℝ) (h : 1 < Nx) (f : Grid Nx Ny ℂ) :
    (mkDerivs omega xr yr Nx Ny NPML L0).Dxb *ᵥ flatten f =
      flatten fun i j => Spec.bwdX (dL Nx Ny xr yr).1 f i j / create_sfactor xr L0 .b omega Nx NPML.1 i := by
  simp only [mkDerivs, S_create, ← Matrix.mulVec_mulVec, createDws_xb _ _ h, spdiag_mulVec]
  refine flat_ext fun i j => ?_
  simp only [flatten_pair]; ring

theorem mkDerivs_Dyf (omega L0 : ℝ) (NPML : ℕ × ℕ) (xr yr : ℝ × ℝ) (h : 1 < Ny) (f : Grid Nx Ny ℂ) :
    (mkDerivs omega xr yr Nx Ny NPML L0).Dyf *ᵥ flatten f =
      flatten fun i j => Spec.fwdY (dL Nx Ny xr yr).2 f i j / create_sfactor yr L0 .f omega Ny NPML.2 j := by
  simp only [mkDerivs, S_create, ← Matrix.mulVec_mulVec, createDws_yf _ _ h, spdiag_mulVec]
  refine flat_ext fun i j => ?_
  simp only [flatten_pair]; ring

theorem mkDerivs_Dyb (omega L0 : ℝ) (NPML : ℕ × ℕ) (xr yr : ℝ × ℝ) (h : 1 < Ny) (f : Grid Nx Ny ℂ) :
    (mkDerivs omega xr yr Nx Ny NPML L0).Dyb *ᵥ flatten f =
      flatten fun i j => Spec.bwdY (dL Nx Ny xr yr).2 f i j / create_sfactor yr L0 .b omega Ny NPML.2 j := by
  simp only [mkDerivs, S_create, ← Matrix.mulVec_mulVec, createDws_yb _ _ h, spdiag_mulVec]
  refine flat_ext fun i j => ?_
  simp only [flatten_pair]; ring

theorem Sim.Valid.dL_eq {s : Sim Nx Ny} (hv : s.Valid) (hx : 0 < Nx) (hy : 0 < Ny) : dL Nx Ny s.xrange s.yrange = (s.dl, s.dl) := by
  have h1 : (Nx : ℝ) ≠ 0 := by exact_mod_cast hx.ne'
  have h2 : (Ny : ℝ) ≠ 0 := by exact_mod_cast hy.ne'
  simp only [dL, hv.xr, hv.yr, sub_zero, mul_div_cancel_left₀ _ h1, mul_div_cancel_left₀ _ h2]

theorem Sim.Valid.range_lt {s : Sim Nx Ny} (hv : s.Valid) (hd : 0 < s.dl) (hx : 0 < Nx) (hy : 0 < Ny) :
    s.xrange.1 < s.xrange.2 ∧ s.yrange.1 < s.yrange.2 := by
  have h1 : (0 : ℝ) < Nx := by exact_mod_cast hx
  have h2 : (0 : ℝ) < Ny := by exact_mod_cast hy
  rw [hv.xr, hv.yr]
  exact ⟨mul_pos h1 hd, mul_pos h2 hd⟩

end Angler
