import Verif.Lemmas.Witness
import Verif.Props.Pml

/-! # C12–C15: reciprocity, Maxwell's equations, linearity -/

namespace Angler

open Matrix

variable {Nx Ny : ℕ}

/-- A source supported outside the absorbing layers. -/
def Spec.SupportedOutsidePML (NPML : ℕ × ℕ) (f : Grid Nx Ny ℂ) : Prop :=
  ∀ (i : Fin Nx) (j : Fin Ny), f i j ≠ 0 → Spec.OutsideAxis Nx NPML.1 i ∧ Spec.OutsideAxis Ny NPML.2 j

/-- The pairing `Σ f g` over the grid. -/
def Spec.pair (f g : Grid Nx Ny ℂ) : ℂ := ∑ i, ∑ j, f i j * g i j

theorem sfactor_outside {xr : ℝ × ℝ} (hw : xr.1 < xr.2) {L0 omega : ℝ} (hL : 0 < L0) (ho : 0 < omega) (d : Dir) {N P : ℕ} (i : Fin N)
    (h : Spec.OutsideAxis N P i) : create_sfactor xr L0 d omega N P i = 1 := by
  have c := C10_pml_factors xr hw L0 omega hL ho d N P i
  rcases h with h | ⟨h1, h2⟩
  · exact c.2.2.2.2.1 (by omega)
  · exact c.2.2.2.2.2 h1 h2

/-- **C12, matrix form.** Reciprocity of the system matrix, both polarisations, any averaging. -/
theorem C12_reciprocity (omega L0 : ℝ) (hL : 0 < L0) (ho : 0 < omega) (NPML : ℕ × ℕ) (xr yr : ℝ × ℝ) (hx : xr.1 < xr.2) (hy : yr.1 < yr.2)
    (eps : Grid Nx Ny ℂ) (pol : Pol) (avg : Bool) (b1 b2 x1 x2 : Grid Nx Ny ℂ)
    (h1 : Spec.SupportedOutsidePML NPML b1) (h2 : Spec.SupportedOutsidePML NPML b2)
    (e1 : (construct_A omega xr yr eps NPML pol L0 avg).1 *ᵥ flatten x1 = flatten b1)
    (e2 : (construct_A omega xr yr eps NPML pol L0 avg).1 *ᵥ flatten x2 = flatten b2) :
    Spec.pair b2 x1 = Spec.pair b1 x2 := by
  have nx := fun i => (C10_pml_factors xr hx L0 omega hL ho .f Nx NPML.1 i).2.2.1
  have ny := fun j => (C10_pml_factors yr hy L0 omega hL ho .f Ny NPML.2 j).2.2.1
  have hs := construct_A_symm omega L0 NPML xr yr eps pol avg nx ny
  set A := (construct_A omega xr yr eps NPML pol L0 avg).1
  set g := symm omega xr yr Nx Ny NPML L0 with hg
  have key : ∀ b : Grid Nx Ny ℂ, Spec.SupportedOutsidePML NPML b → spdiag g *ᵥ flatten b = flatten b := by
    intro b hb
    rw [spdiag_mulVec]
    refine flat_ext fun i j => ?_
    rw [flatten_pair]
    by_cases h0 : b i j = 0
    · rw [h0, mul_zero]
    · obtain ⟨ha, hc⟩ := hb i j h0
      rw [hg, symm, flatten_pair, sfactor_outside hx hL ho _ _ ha, sfactor_outside hy hL ho _ _ hc]
      ring
  have p1 : (spdiag g * A) *ᵥ flatten x1 = flatten b1 := by rw [← Matrix.mulVec_mulVec, e1, key b1 h1]
  have p2 : (spdiag g * A) *ᵥ flatten x2 = flatten b2 := by rw [← Matrix.mulVec_mulVec, e2, key b2 h2]
  have conv : ∀ f h : Grid Nx Ny ℂ, Spec.pair f h = flatten f ⬝ᵥ flatten h := by
    intro f h
    rw [dotProduct, sum_flat]
    simp only [flatten_pair, Spec.pair]
  rw [conv, conv, ← p2, ← p1, dotProduct_comm, dotProduct_mulVec, ← Matrix.mulVec_transpose, hs]

/-- The third component returned by a linear solve is the solution of the linear system. -/
theorem solve_fields_third (env : Env) (s : Sim Nx Ny) (avg : Bool) :
    ∃ P Q, (s.solve_fields env false avg).1 = .ok (P, Q, unflatten (solver_direct env s.A s.rhs)) := by
  refine ⟨(s.in_plane avg s.eps_r (solver_direct env s.A s.rhs)).1, (s.in_plane avg s.eps_r (solver_direct env s.A s.rhs)).2.1, ?_⟩
  simp only [Sim.solve_fields, if_true]
  cases hp : s.pol <;> simp [Sim.in_plane, hp]

/-- **C12 through `solve_fields`.** The response at a detector is unchanged when source and detector are exchanged. -/
theorem C12_reciprocity_solve (env : Env) (he : env.Exact) (s1 s2 : Sim Nx Ny) (hv : s1.Valid) (hd : 0 < s1.dl) (hNx : 0 < Nx) (hNy : 0 < Ny)
    (hs2 : s2 = { s1 with src := s2.src }) (hdet : s1.A.det ≠ 0)
    (h1 : Spec.SupportedOutsidePML s1.NPML s1.src) (h2 : Spec.SupportedOutsidePML s1.NPML s2.src) (a1 a2 : Bool) :
    ∃ P1 Q1 F1 P2 Q2 F2, (s1.solve_fields env false a1).1 = .ok (P1, Q1, F1) ∧ (s2.solve_fields env false a2).1 = .ok (P2, Q2, F2) ∧
      Spec.pair s2.src F1 = Spec.pair s1.src F2 := by
  have hA2 : s2.A = s1.A := by rw [hs2]
  have ho2 : s2.omega = s1.omega := by rw [hs2]
  obtain ⟨P1, Q1, r1⟩ := solve_fields_third env s1 a1
  obtain ⟨P2, Q2, r2⟩ := solve_fields_third env s2 a2
  refine ⟨P1, Q1, _, P2, Q2, _, r1, r2, ?_⟩
  · obtain ⟨rx, ry⟩ := hv.range_lt hd hNx hNy
    have ho : (Complex.I * (s1.omega : ℂ)) ≠ 0 := mul_ne_zero Complex.I_ne_zero (by exact_mod_cast hv.omega_pos.ne')
    have sup : ∀ f : Grid Nx Ny ℂ, Spec.SupportedOutsidePML s1.NPML f →
        Spec.SupportedOutsidePML s1.NPML (fun i j => f i j * Complex.I * (s1.omega : ℂ)) := by
      intro f hf i j hne
      exact hf i j fun h0 => hne (by simp [h0])
    have r := C12_reciprocity s1.omega s1.L0 hv.L0_pos hv.omega_pos s1.NPML s1.xrange s1.yrange rx ry s1.eps_r s1.pol true
      (fun i j => s1.src i j * Complex.I * (s1.omega : ℂ)) (fun i j => s2.src i j * Complex.I * (s1.omega : ℂ))
      (unflatten (solver_direct env s1.A s1.rhs)) (unflatten (solver_direct env s2.A s2.rhs)) (sup _ h1) (sup _ h2)
      (by rw [flatten_unflatten, ← hv.A_eq, solver_direct_spec he (Or.inl hdet)]; rfl)
      (by rw [flatten_unflatten, ← hv.A_eq, hA2, solver_direct_spec he (Or.inl hdet)]; funext k; simp only [Sim.rhs, ho2]; rfl)
    have pull : ∀ f g : Grid Nx Ny ℂ, Spec.pair (fun i j => f i j * Complex.I * (s1.omega : ℂ)) g = (Complex.I * (s1.omega : ℂ)) * Spec.pair f g := by
      intro f g
      simp only [Spec.pair, Finset.mul_sum]
      exact Finset.sum_congr rfl fun i _ => Finset.sum_congr rfl fun j _ => by ring
    rw [pull, pull] at r
    exact mul_left_cancel₀ ho r

/-- A point source. -/
def Spec.point (a : Fin Nx) (b : Fin Ny) : Grid Nx Ny ℂ := fun i j => if i = a ∧ j = b then 1 else 0

/-- Non-vacuity of C12: two different point sources in a nonsingular simulation. -/
example (env : Env) (he : env.Exact) :
    ∃ P1 Q1 F1 P2 Q2 F2, ((wsim .Ez (fun _ _ => 1) (Spec.point 0 0)).solve_fields env).1 = .ok (P1, Q1, F1) ∧
      ((wsim .Ez (fun _ _ => 1) (Spec.point 1 1)).solve_fields env).1 = .ok (P2, Q2, F2) ∧
      Spec.pair (Spec.point 1 1) F1 = Spec.pair (Spec.point 0 0) F2 :=
  C12_reciprocity_solve env he _ _ (wsim_valid _ _ _) (wsim_dl_pos _ _ _) (by norm_num) (by norm_num) rfl (wsim_Ez_det _)
    (fun _ _ _ => ⟨Or.inl rfl, Or.inl rfl⟩) (fun _ _ _ => ⟨Or.inl rfl, Or.inl rfl⟩) false false

/-- **C13, operator form** (all grids, including one-cell axes): the returned triple satisfies Faraday's and Ampère's law with the simulation's derivative operators. -/
theorem C13_maxwell_Ez_operators (env : Env) (he : env.Exact) (s : Sim Nx Ny) (hv : s.Valid) (hp : s.pol = .Ez)
    (hdet : s.A.det ≠ 0 ∨ s.src = 0) (avg : Bool) :
    ∃ Hx Hy Ez, (s.solve_fields env false avg).1 = .ok (Hx, Hy, Ez) ∧
      (Complex.I * s.omega * (MU_0 * s.L0 : ℝ)) • flatten Hx = -(s.derivs.Dyb *ᵥ flatten Ez) ∧
      (Complex.I * s.omega * (MU_0 * s.L0 : ℝ)) • flatten Hy = s.derivs.Dxb *ᵥ flatten Ez ∧
      s.derivs.Dxf *ᵥ flatten Hy - s.derivs.Dyf *ᵥ flatten Hx
        - flatten (fun i j => Complex.I * s.omega * ((EPSILON_0 * s.L0 : ℝ) * s.eps_r i j) * Ez i j) = flatten s.src := by
  have ho : (s.omega : ℂ) ≠ 0 := by exact_mod_cast hv.omega_pos.ne'
  have hM : ((MU_0 * s.L0 : ℝ) : ℂ) ≠ 0 := by exact_mod_cast (mul_pos MU_0_pos hv.L0_pos).ne'
  have hI := Complex.I_ne_zero
  set X := solver_direct env s.A s.rhs with hX
  have hAX : s.A *ᵥ X = s.rhs := solver_direct_spec he (hdet.imp_right fun h => by funext k; simp [Sim.rhs, h, flatten])
  have hAe : s.A = (1 / ((MU_0 * s.L0 : ℝ) : ℂ)) • (s.derivs.Dxf * s.derivs.Dxb) + (1 / ((MU_0 * s.L0 : ℝ) : ℂ)) • (s.derivs.Dyf * s.derivs.Dyb)
      + ((s.omega : ℂ) ^ 2) • spdiag (fun k => ((EPSILON_0 * s.L0 : ℝ) : ℂ) * flatten s.eps_r k) := by
    rw [hv.derivs_eq]
    exact hv.A_eq.trans (by rw [hp]; rfl)
  refine ⟨unflatten ((-1 / Complex.I / (s.omega : ℂ) / ((MU_0 * s.L0 : ℝ) : ℂ)) • (s.derivs.Dyb *ᵥ X)),
    unflatten ((1 / Complex.I / (s.omega : ℂ) / ((MU_0 * s.L0 : ℝ) : ℂ)) • (s.derivs.Dxb *ᵥ X)), unflatten X, ?_, ?_, ?_, ?_⟩
  · simp only [Sim.solve_fields, if_true, Sim.in_plane, hp, ← hX]
  · rw [flatten_unflatten, flatten_unflatten, smul_smul, ← neg_one_smul ℂ (s.derivs.Dyb *ᵥ X)]
    congr 1
    field_simp
  · rw [flatten_unflatten, flatten_unflatten, smul_smul]
    conv_rhs => rw [← one_smul ℂ (s.derivs.Dxb *ᵥ X)]
    congr 1
    field_simp
  · rw [flatten_unflatten, flatten_unflatten, Matrix.mulVec_smul, Matrix.mulVec_smul, Matrix.mulVec_mulVec, Matrix.mulVec_mulVec]
    funext k
    have hk := congrFun hAX k
    rw [hAe] at hk
    simp only [Matrix.add_mulVec, smul_mulVec, spdiag_mulVec, Pi.add_apply, Pi.smul_apply, smul_eq_mul, Sim.rhs] at hk
    have hu : ∀ g : Grid Nx Ny ℂ, flatten (fun i j => Complex.I * s.omega * ((EPSILON_0 * s.L0 : ℝ) * s.eps_r i j) * g i j) k =
      Complex.I * s.omega * ((EPSILON_0 * s.L0 : ℝ) * flatten s.eps_r k) * flatten g k := fun g => rfl
    simp only [Pi.sub_apply, Pi.smul_apply, smul_eq_mul, hu, flatten_unflatten]
    have e : flatten s.src k = (1 / (Complex.I * s.omega)) * (flatten s.src k * Complex.I * (s.omega : ℂ)) := by field_simp
    rw [e, ← hk]
    field_simp
    rw [Complex.I_sq]
    ring

/-- **C13, grid form.** With plain difference quotients with spacing `dl` and the PML stretch factors. -/
theorem C13_maxwell_Ez (env : Env) (he : env.Exact) (s : Sim Nx Ny) (hv : s.Valid) (_hd : 0 < s.dl) (hp : s.pol = .Ez) (hx : 1 < Nx) (hy : 1 < Ny)
    (hdet : s.A.det ≠ 0 ∨ s.src = 0) (avg : Bool) :
    ∃ Hx Hy Ez, (s.solve_fields env false avg).1 = .ok (Hx, Hy, Ez) ∧
      Spec.MaxwellEz s.omega (MU_0 * s.L0) s.dl
        (create_sfactor (0, Nx * s.dl) s.L0 .f s.omega Nx s.NPML.1) (create_sfactor (0, Nx * s.dl) s.L0 .b s.omega Nx s.NPML.1)
        (create_sfactor (0, Ny * s.dl) s.L0 .f s.omega Ny s.NPML.2) (create_sfactor (0, Ny * s.dl) s.L0 .b s.omega Ny s.NPML.2)
        (fun i j => (EPSILON_0 * s.L0 : ℝ) * s.eps_r i j) s.src Hx Hy Ez := by
  obtain ⟨Hx, Hy, Ez, h0, h1, h2, h3⟩ := C13_maxwell_Ez_operators env he s hv hp hdet avg
  refine ⟨Hx, Hy, Ez, h0, fun i j => ?_⟩
  rw [hv.derivs_eq] at h1 h2 h3
  rw [mkDerivs_Dyb _ _ _ _ _ hy, hv.dL_eq (by omega) (by omega)] at h1
  rw [mkDerivs_Dxb _ _ _ _ _ hx, hv.dL_eq (by omega) (by omega)] at h2
  rw [mkDerivs_Dxf _ _ _ _ _ hx, mkDerivs_Dyf _ _ _ _ _ hy, hv.dL_eq (by omega) (by omega)] at h3
  have k1 := congrFun h1 (finProdFinEquiv (i, j))
  have k2 := congrFun h2 (finProdFinEquiv (i, j))
  have k3 := congrFun h3 (finProdFinEquiv (i, j))
  simp only [Pi.sub_apply, Pi.neg_apply, Pi.smul_apply, flatten_pair, smul_eq_mul, hv.xr, hv.yr] at k1 k2 k3
  exact ⟨k1, k2, k3⟩

/-- Non-vacuity of C13: a point source in vacuum. -/
example (env : Env) (he : env.Exact) :=
  C13_maxwell_Ez env he (wsim .Ez (fun _ _ => 1) (Spec.point 0 0)) (wsim_valid _ _ _) (wsim_dl_pos _ _ _) rfl (by norm_num) (by norm_num)
    (Or.inl (wsim_Ez_det _)) false

/-- The permittivity seen by `Ey` (average with the previous cell along `x`) and by `Ex` (along `y`), scaled to `ε₀ L0`. -/
noncomputable def Spec.edgeX (e : ℝ) (eps : Grid Nx Ny ℂ) : Grid Nx Ny ℂ := fun i j => e * ((eps (Spec.prev i) j + eps i j) / 2)
/-- See `edgeX`. -/
noncomputable def Spec.edgeY (e : ℝ) (eps : Grid Nx Ny ℂ) : Grid Nx Ny ℂ := fun i j => e * ((eps i (Spec.prev j) + eps i j) / 2)

theorem edgeX_eq (e : ℝ) (eps : Grid Nx Ny ℂ) : Spec.edgeX e eps = grid_average (fun i j => (e : ℂ) * eps i j) .x := by
  funext i j
  simp only [Spec.edgeX, grid_average, rollBack, Spec.prev]
  ring

theorem edgeY_eq (e : ℝ) (eps : Grid Nx Ny ℂ) : Spec.edgeY e eps = grid_average (fun i j => (e : ℂ) * eps i j) .y := by
  funext i j
  simp only [Spec.edgeY, grid_average, rollBack, Spec.prev]
  ring

/-- **C14 (operator form, partial).** Full claim: for *either* value of `averaging`.  Proved when `averaging=True`, or when averaging does not change the
permittivity.  Missing: the default `averaging=False` on a non-uniform permittivity, where the claim is false (`C14_default_averaging_fails`). -/
theorem C14_maxwell_Hz_operators_partial (env : Env) (he : env.Exact) (s : Sim Nx Ny) (hv : s.Valid) (hp : s.pol = .Hz)
    (hdet : s.A.det ≠ 0 ∨ s.src = 0) (avg : Bool)
    (havg : avg = true ∨ (Spec.edgeX (EPSILON_0 * s.L0) s.eps_r = (fun i j => ((EPSILON_0 * s.L0 : ℝ) : ℂ) * s.eps_r i j) ∧
      Spec.edgeY (EPSILON_0 * s.L0) s.eps_r = (fun i j => ((EPSILON_0 * s.L0 : ℝ) : ℂ) * s.eps_r i j))) :
    ∃ Ex Ey Hz, (s.solve_fields env false avg).1 = .ok (Ex, Ey, Hz) ∧
      (∀ k, flatten (Spec.edgeY (EPSILON_0 * s.L0) s.eps_r) k ≠ 0 →
        Complex.I * s.omega * flatten (Spec.edgeY (EPSILON_0 * s.L0) s.eps_r) k * flatten Ex k = (s.derivs.Dyb *ᵥ flatten Hz) k) ∧
      (∀ k, flatten (Spec.edgeX (EPSILON_0 * s.L0) s.eps_r) k ≠ 0 →
        Complex.I * s.omega * flatten (Spec.edgeX (EPSILON_0 * s.L0) s.eps_r) k * flatten Ey k = -(s.derivs.Dxb *ᵥ flatten Hz) k) ∧
      s.derivs.Dyf *ᵥ flatten Ex - s.derivs.Dxf *ᵥ flatten Ey
        - (Complex.I * s.omega * (MU_0 * s.L0 : ℝ)) • flatten Hz = flatten s.src := by
  have ho : (s.omega : ℂ) ≠ 0 := by exact_mod_cast hv.omega_pos.ne'
  have hI := Complex.I_ne_zero
  set X := solver_direct env s.A s.rhs with hX
  have hAX : s.A *ᵥ X = s.rhs := solver_direct_spec he (hdet.imp_right fun h => by funext k; simp [Sim.rhs, h, flatten])
  set ex := flatten (Spec.edgeX (EPSILON_0 * s.L0) s.eps_r) with hex
  set ey := flatten (Spec.edgeY (EPSILON_0 * s.L0) s.eps_r) with hey
  have hxy : Sim.eps_xy s.L0 avg s.eps_r = (ex, ey) := by
    rw [Sim.eps_xy]
    by_cases ha : avg = true
    · rw [if_pos ha, hex, hey, edgeX_eq, edgeY_eq]
    · obtain ⟨h1, h2⟩ := havg.resolve_left ha
      rw [if_neg ha, hex, hey, h1, h2]
      rfl
  have hAe : s.A = s.derivs.Dxf * spdiag (fun k => 1 / ex k) * s.derivs.Dxb + s.derivs.Dyf * spdiag (fun k => 1 / ey k) * s.derivs.Dyb
      + ((s.omega : ℂ) ^ 2 * ((MU_0 * s.L0 : ℝ) : ℂ)) • (1 : Mat (Nx * Ny) ℂ) := by
    rw [hv.derivs_eq, hex, hey, edgeX_eq, edgeY_eq]
    exact hv.A_eq.trans (by rw [hp]; rfl)
  refine ⟨unflatten ((1 / Complex.I / (s.omega : ℂ)) • ((spdiag (fun k => 1 / ey k) * s.derivs.Dyb) *ᵥ X)),
    unflatten ((-1 / Complex.I / (s.omega : ℂ)) • ((spdiag (fun k => 1 / ex k) * s.derivs.Dxb) *ᵥ X)), unflatten X, ?_, ?_, ?_, ?_⟩
  · simp only [Sim.solve_fields, if_true, Sim.in_plane, hp, ← hX, hxy]
  · intro k hk
    simp only [flatten_unflatten, ← Matrix.mulVec_mulVec, spdiag_mulVec, Pi.smul_apply, smul_eq_mul]
    field_simp
  · intro k hk
    simp only [flatten_unflatten, ← Matrix.mulVec_mulVec, spdiag_mulVec, Pi.smul_apply, smul_eq_mul]
    field_simp
  · rw [flatten_unflatten, flatten_unflatten, flatten_unflatten, Matrix.mulVec_smul, Matrix.mulVec_smul, Matrix.mulVec_mulVec, Matrix.mulVec_mulVec]
    funext k
    have hk := congrFun hAX k
    rw [hAe] at hk
    simp only [Matrix.add_mulVec, smul_mulVec, Matrix.one_mulVec, Pi.add_apply, Pi.smul_apply, smul_eq_mul, Sim.rhs, Matrix.mul_assoc] at hk
    simp only [Pi.sub_apply, Pi.smul_apply, smul_eq_mul]
    have e : flatten s.src k = (1 / (Complex.I * s.omega)) * (flatten s.src k * Complex.I * (s.omega : ℂ)) := by field_simp
    rw [e, ← hk]
    field_simp
    rw [Complex.I_sq]
    ring

/-- **C14 (grid form, partial).** Same scope as the operator form. -/
theorem C14_maxwell_Hz_partial (env : Env) (he : env.Exact) (s : Sim Nx Ny) (hv : s.Valid) (_hd : 0 < s.dl) (hp : s.pol = .Hz) (hx : 1 < Nx) (hy : 1 < Ny)
    (hdet : s.A.det ≠ 0 ∨ s.src = 0) (avg : Bool)
    (havg : avg = true ∨ (Spec.edgeX (EPSILON_0 * s.L0) s.eps_r = (fun i j => ((EPSILON_0 * s.L0 : ℝ) : ℂ) * s.eps_r i j) ∧
      Spec.edgeY (EPSILON_0 * s.L0) s.eps_r = (fun i j => ((EPSILON_0 * s.L0 : ℝ) : ℂ) * s.eps_r i j)))
    (hne : ∀ i j, Spec.edgeX (EPSILON_0 * s.L0) s.eps_r i j ≠ 0 ∧ Spec.edgeY (EPSILON_0 * s.L0) s.eps_r i j ≠ 0) :
    ∃ Ex Ey Hz, (s.solve_fields env false avg).1 = .ok (Ex, Ey, Hz) ∧
      Spec.MaxwellHz s.omega (MU_0 * s.L0) s.dl
        (create_sfactor (0, Nx * s.dl) s.L0 .f s.omega Nx s.NPML.1) (create_sfactor (0, Nx * s.dl) s.L0 .b s.omega Nx s.NPML.1)
        (create_sfactor (0, Ny * s.dl) s.L0 .f s.omega Ny s.NPML.2) (create_sfactor (0, Ny * s.dl) s.L0 .b s.omega Ny s.NPML.2)
        (Spec.edgeX (EPSILON_0 * s.L0) s.eps_r) (Spec.edgeY (EPSILON_0 * s.L0) s.eps_r) s.src Ex Ey Hz := by
  obtain ⟨Ex, Ey, Hz, h0, h1, h2, h3⟩ := C14_maxwell_Hz_operators_partial env he s hv hp hdet avg havg
  refine ⟨Ex, Ey, Hz, h0, fun i j => ?_⟩
  rw [hv.derivs_eq] at h1 h2 h3
  rw [mkDerivs_Dyb _ _ _ _ _ hy, hv.dL_eq (by omega) (by omega)] at h1
  rw [mkDerivs_Dxb _ _ _ _ _ hx, hv.dL_eq (by omega) (by omega)] at h2
  rw [mkDerivs_Dxf _ _ _ _ _ hx, mkDerivs_Dyf _ _ _ _ _ hy, hv.dL_eq (by omega) (by omega)] at h3
  have k1 := h1 (finProdFinEquiv (i, j)) (by rw [flatten_pair]; exact (hne i j).2)
  have k2 := h2 (finProdFinEquiv (i, j)) (by rw [flatten_pair]; exact (hne i j).1)
  have k3 := congrFun h3 (finProdFinEquiv (i, j))
  simp only [Pi.sub_apply, Pi.smul_apply, flatten_pair, smul_eq_mul, hv.xr, hv.yr] at k1 k2 k3
  exact ⟨k1, k2, k3⟩

/-- The non-uniform permittivity of the witness: `1` in the first column of cells, `3` in the second. -/
def wEps : Grid 2 2 ℂ := fun i _ => if i = 0 then 1 else 3

theorem wsim_Hz_det (src : Grid 2 2 ℂ) : (wsim .Hz wEps src).A.det ≠ 0 := by
  have hE : (ETA_0 : ℂ) ≠ 0 := by exact_mod_cast ETA_0_pos.ne'
  refine det_ne_zero_of_inj fun v hv => ?_
  rw [← flatten_unflatten (Nx := 2) (Ny := 2) v] at hv ⊢
  generalize (unflatten v : Grid 2 2 ℂ) = f at hv ⊢
  rw [wsim_Hz_apply, flatten_eq_zero] at hv
  rw [flatten_eq_zero]
  have e00 := congrFun (congrFun hv 0) 0
  have e01 := congrFun (congrFun hv 0) 1
  have e10 := congrFun (congrFun hv 1) 0
  have e11 := congrFun (congrFun hv 1) 1
  norm_num [wEps, hE] at e00 e01 e10 e11
  apply grid22_zero
  · linear_combination (-2 / 13) * e00 + (2 / 13) * e01 + (5 / 13) * e10 + (8 / 13) * e11
  · linear_combination (2 / 13) * e00 - (2 / 13) * e01 + (8 / 13) * e10 + (5 / 13) * e11
  · linear_combination (5 / 13) * e00 + (8 / 13) * e01 - (6 / 13) * e10 + (6 / 13) * e11
  · linear_combination (8 / 13) * e00 + (5 / 13) * e01 + (6 / 13) * e10 - (6 / 13) * e11

/-- Non-vacuity of C14: a non-uniform permittivity, a point source, `averaging=True`. -/
example (env : Env) (he : env.Exact) :=
  C14_maxwell_Hz_partial env he (wsim .Hz wEps (Spec.point 0 0)) (wsim_valid _ _ _) (wsim_dl_pos _ _ _) rfl (by norm_num) (by norm_num)
    (Or.inl (wsim_Hz_det _)) true (Or.inl rfl) (by
      have hE : (EPSILON_0 : ℂ) ≠ 0 := by exact_mod_cast EPSILON_0_pos.ne'
      intro i j
      fin_cases i <;> fin_cases j <;> norm_num [wsim, wEps, Spec.edgeX, Spec.edgeY, Spec.prev, hE])

/-- The source of the counterexample. -/
noncomputable def wSrcHz : Grid 2 2 ℂ := fun i _ => if i = 0 then (ETA_0 : ℂ) ^ 2 / Complex.I else 0

/-- **C14, negation.** With the default `averaging=False` the returned fields of a nonsingular Hz simulation do not satisfy Faraday's law: the system matrix was
built with averaged permittivity, the in-plane fields without. -/
theorem C14_default_averaging_fails (env : Env) (he : env.Exact) :
    (wsim .Hz wEps wSrcHz).Valid ∧ (wsim .Hz wEps wSrcHz).A.det ≠ 0 ∧
    ∃ Ex Ey Hz, ((wsim .Hz wEps wSrcHz).solve_fields env).1 = .ok (Ex, Ey, Hz) ∧
      Spec.fwdY (wsim .Hz wEps wSrcHz).dl Ex 0 0 - Spec.fwdX (wsim .Hz wEps wSrcHz).dl Ey 0 0
        - Complex.I * (wsim .Hz wEps wSrcHz).omega * (MU_0 * (wsim .Hz wEps wSrcHz).L0 : ℝ) * Hz 0 0 ≠ wSrcHz 0 0 := by
  refine ⟨wsim_valid _ _ _, wsim_Hz_det _, ?_⟩
  have hE : (ETA_0 : ℂ) ≠ 0 := by exact_mod_cast ETA_0_pos.ne'
  have hI := Complex.I_ne_zero
  let X : Grid 2 2 ℂ := fun i _ => if i = 0 then 0 else 1
  have hsol : solver_direct env (wsim .Hz wEps wSrcHz).A (wsim .Hz wEps wSrcHz).rhs = flatten X := by
    refine solver_direct_unique he (wsim_Hz_det _) ?_
    rw [wsim_Hz_apply]
    refine flat_ext fun i j => ?_
    simp only [flatten_pair, Sim.rhs]
    have hII : ∀ z : ℂ, z = -(z * Complex.I * Complex.I) := fun z => by rw [mul_assoc, Complex.I_mul_I]; ring
    fin_cases i <;> fin_cases j <;> norm_num [X, wEps, wsim, wSrcHz, flatten_pair] <;> exact hII _
  refine ⟨_, _, _, by simp only [Sim.solve_fields, if_true, hsol]; rw [show (wsim .Hz wEps wSrcHz).eps_r = wEps from rfl, wsim_Hz_in_plane], ?_⟩
  intro h
  simp [Spec.fwdX, Spec.fwdY, Spec.next, X, wEps, wsim, wSrcHz] at h
  have h2 : (ETA_0 : ℂ) ^ 2 = 0 := by
    ring_nf at h
    have h3 : (ETA_0 : ℂ) ^ 2 * Complex.I * (1 / 3) = 0 := by linear_combination h
    simpa [hI] using h3
  exact hE (by simpa using h2)

/-- The in-plane components depend linearly on the solution vector. -/
theorem in_plane_linear (s : Sim Nx Ny) (avg : Bool) (eps : Grid Nx Ny ℂ) (a b : ℂ) (X Y : Vec (Nx * Ny) ℂ) :
    s.in_plane avg eps (a • X + b • Y) = a • s.in_plane avg eps X + b • s.in_plane avg eps Y := by
  unfold Sim.in_plane
  cases s.pol <;>
  · simp only [Matrix.mulVec_add, Matrix.mulVec_smul]
    refine Prod.ext ?_ (Prod.ext ?_ ?_) <;>
    · funext i j
      simp only [Prod.fst_add, Prod.snd_add, Prod.smul_fst, Prod.smul_snd, Pi.add_apply, Pi.smul_apply, unflatten, smul_eq_mul]
      try ring

/-- **C15.** Fields are linear in the source: all three returned components. -/
theorem C15_linear_in_source (env : Env) (he : env.Exact) (s : Sim Nx Ny) (hdet : s.A.det ≠ 0) (avg : Bool) (a b : ℂ) (s1 s2 : Grid Nx Ny ℂ) :
    ∃ t1 t2 : Grid Nx Ny ℂ × Grid Nx Ny ℂ × Grid Nx Ny ℂ,
      ({ s with src := s1 }.solve_fields env false avg).1 = .ok t1 ∧ ({ s with src := s2 }.solve_fields env false avg).1 = .ok t2 ∧
      ({ s with src := fun i j => a * s1 i j + b * s2 i j }.solve_fields env false avg).1 = .ok
        ((fun i j => a * t1.1 i j + b * t2.1 i j), (fun i j => a * t1.2.1 i j + b * t2.2.1 i j), (fun i j => a * t1.2.2 i j + b * t2.2.2 i j)) := by
  refine ⟨_, _, rfl, rfl, ?_⟩
  have hX : solver_direct env s.A ({ s with src := fun i j => a * s1 i j + b * s2 i j } : Sim Nx Ny).rhs =
      a • solver_direct env s.A ({ s with src := s1 } : Sim Nx Ny).rhs + b • solver_direct env s.A ({ s with src := s2 } : Sim Nx Ny).rhs := by
    refine solver_direct_unique he hdet ?_
    rw [Matrix.mulVec_add, Matrix.mulVec_smul, Matrix.mulVec_smul, solver_direct_spec he (Or.inl hdet), solver_direct_spec he (Or.inl hdet)]
    funext k
    simp only [Sim.rhs, Pi.add_apply, Pi.smul_apply, smul_eq_mul, flatten]
    ring
  have hip : ∀ (src' : Grid Nx Ny ℂ) X, ({ s with src := src' } : Sim Nx Ny).in_plane avg s.eps_r X = s.in_plane avg s.eps_r X := fun _ _ => rfl
  simp only [Sim.solve_fields, if_true, hip, hX, in_plane_linear]
  rfl

/-- **C15, zero source**: zero fields, without any assumption on the matrix. -/
theorem C15_zero_source (env : Env) (s : Sim Nx Ny) (hs : s.src = fun _ _ => 0) (avg : Bool) :
    (s.solve_fields env false avg).1 = .ok ((fun _ _ => 0), (fun _ _ => 0), (fun _ _ => 0)) := by
  have hr : s.rhs = 0 := by funext k; simp [Sim.rhs, hs, flatten]
  have hX : solver_direct env s.A s.rhs = 0 := by simp [solver_direct, hr]
  simp only [Sim.solve_fields, if_true, hX]
  have h := in_plane_linear s avg s.eps_r 0 0 0 0
  simp only [zero_smul, add_zero] at h
  rw [h]
  rfl

/-- Non-vacuity of C15. -/
example (env : Env) (he : env.Exact) (a b : ℂ) :=
  C15_linear_in_source env he (wsim .Ez (fun _ _ => 1) (Spec.point 0 0)) (wsim_Ez_det _) false a b (Spec.point 0 1) (Spec.point 1 0)

end Angler
