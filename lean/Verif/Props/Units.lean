import Verif.Props.Flux
import Verif.Lemmas.NlSolve
import Verif.Lemmas.CoarseSim
import Verif.Lemmas.KerrDominant

/-! # C64: the length unit is immaterial -/

namespace Angler

open Matrix

variable {Nx Ny : ℕ}

/-! ## Specification -/

/-- A field in the new unit. -/
def Spec.inUnit (a : ℝ) (f : Grid Nx Ny ℂ) : Grid Nx Ny ℂ := fun i j => (a : ℂ) * f i j

/-- `s'` describes the same device as `s` in a length unit `a` times larger: lengths divide by `a`, fields (volts or amperes per length) multiply by `a`, current densities (per
length²) by `a²`, Kerr coefficients (length²/volt²) divide by `a²`. -/
structure Spec.SameDevice (a : ℝ) (s s' : Sim Nx Ny) : Prop where
  L0 : s'.L0 = a * s.L0
  dl : s'.dl = s.dl / a
  omega : s'.omega = s.omega
  NPML : s'.NPML = s.NPML
  pol : s'.pol = s.pol
  eps_r : s'.eps_r = s.eps_r
  src : s'.src = fun i j => (a : ℂ) ^ 2 * s.src i j
  nonlinearity : s'.nonlinearity = s.nonlinearity.map fun n => { n with chi := n.chi / a ^ 2 }
  fields : s'.fields = Spec.scaled a s.fields
  fields_nl : s'.fields_nl = Spec.scaled a s.fields_nl

/-- Three field components in the new unit. -/
def Spec.inUnit3 (a : ℝ) (t : Grid Nx Ny ℂ × Grid Nx Ny ℂ × Grid Nx Ny ℂ) : Grid Nx Ny ℂ × Grid Nx Ny ℂ × Grid Nx Ny ℂ := (Spec.inUnit a t.1, Spec.inUnit a t.2.1, Spec.inUnit a t.2.2)

/-- A nonlinear solution in the new unit: the fields are converted, the convergence history is the same. -/
def Spec.inUnitNl (a : ℝ) (r : NlResult Nx Ny) : NlResult Nx Ny := ⟨Spec.inUnit a r.Fx, Spec.inUnit a r.Fy, Spec.inUnit a r.Fz, r.conv⟩

/-! ## The system -/

theorem sig_w_unit (a l dw : ℝ) (ha : 0 < a) : sig_w (l / a) (dw / a) = a * sig_w l dw := by
  unfold sig_w
  have h := ETA_0_pos
  by_cases hd : dw = 0
  · subst hd; simp
  · field_simp

theorem Sfac_unit (a l dw omega L0 : ℝ) (ha : 0 < a) : Sfac (l / a) (dw / a) omega (a * L0) = Sfac l dw omega L0 := by
  rw [Sfac_eq, Sfac_eq, sig_w_unit a l dw ha]
  congr 2
  rw [show omega * EPSILON_0 * (a * L0) = a * (omega * EPSILON_0 * L0) by ring, mul_div_mul_left _ _ ha.ne']

theorem sfactor_unit (a dl L0 omega : ℝ) (ha : 0 < a) (d : Dir) (N P : ℕ) (i : Fin N) :
    create_sfactor (0, N * (dl / a)) (a * L0) d omega N P i = create_sfactor (0, N * dl) L0 d omega N P i := by
  have hh : ((N : ℝ) * (dl / a) - 0) / N = ((N : ℝ) * dl - 0) / N / a := by ring
  have h1 : ∀ z, Sfac (((N : ℝ) * dl - 0) / N / a * z) ((P : ℝ) * (((N : ℝ) * dl - 0) / N / a)) omega (a * L0) = Sfac (((N : ℝ) * dl - 0) / N * z) ((P : ℝ) * (((N : ℝ) * dl - 0) / N)) omega L0 := by
    intro z
    rw [show ((N : ℝ) * dl - 0) / N / a * z = ((N : ℝ) * dl - 0) / N * z / a by ring, show (P : ℝ) * (((N : ℝ) * dl - 0) / N / a) = (P : ℝ) * (((N : ℝ) * dl - 0) / N) / a by ring,
      Sfac_unit _ _ _ _ _ ha]
  unfold create_sfactor
  simp only [hh, h1]

theorem createDws_unit (a : ℝ) (w : Axis) (d : Dir) (dx dy : ℝ) (hx : 1 < Nx) (hy : 1 < Ny) : createDws w d (dx / a) (dy / a) Nx Ny = (a : ℂ) • createDws w d dx dy Nx Ny := by
  have h : ∀ z : ℝ, (1 / ((z / a : ℝ) : ℂ)) = (a : ℂ) * (1 / (z : ℂ)) := fun z => by
    push_cast
    rw [one_div_div, div_eq_mul_one_div]
  cases w <;> cases d <;> simp only [createDws, if_pos hx, if_pos hy, h, mul_smul]

theorem mkDerivs_unit (a : ℝ) (ha : 0 < a) (omega L0 dl : ℝ) (NPML : ℕ × ℕ) (hx : 1 < Nx) (hy : 1 < Ny) :
    let D := mkDerivs omega (0, Nx * dl) (0, Ny * dl) Nx Ny NPML L0
    mkDerivs omega (0, Nx * (dl / a)) (0, Ny * (dl / a)) Nx Ny NPML (a * L0) = ⟨(a : ℂ) • D.Dyb, (a : ℂ) • D.Dxb, (a : ℂ) • D.Dxf, (a : ℂ) • D.Dyf⟩ := by
  intro D
  have hS : S_create omega (a * L0) Nx Ny NPML (0, Nx * (dl / a)) (0, Ny * (dl / a)) = S_create omega L0 Nx Ny NPML (0, Nx * dl) (0, Ny * dl) := by
    unfold S_create
    simp only [sfactor_unit _ _ _ _ ha]
  have hd : dL Nx Ny ((0 : ℝ), Nx * (dl / a)) ((0 : ℝ), Ny * (dl / a)) = ((dL Nx Ny ((0 : ℝ), Nx * dl) ((0 : ℝ), Ny * dl)).1 / a, (dL Nx Ny ((0 : ℝ), Nx * dl) ((0 : ℝ), Ny * dl)).2 / a) := by
    unfold dL
    exact Prod.ext (by ring) (by ring)
  simp only [D]
  unfold mkDerivs
  simp only [hS, hd, createDws_unit a _ _ _ _ hx hy, Matrix.mul_smul]

theorem spdiag_smul' {n : ℕ} (c : ℂ) (v : Vec n ℂ) : spdiag (fun k => c * v k) = c • spdiag v := by
  unfold spdiag
  rw [← Matrix.diagonal_smul]
  rfl

theorem grid_average_smul' (c : ℂ) (a : Grid Nx Ny ℂ) (w : Axis) : grid_average (fun i j => c * a i j) w = fun i j => c * grid_average a w i j := by
  funext i j
  cases w <;> simp only [grid_average] <;> ring

theorem eps_xy_unit (a L0 : ℝ) (avg : Bool) (eps : Grid Nx Ny ℂ) :
    Sim.eps_xy (a * L0) avg eps = (fun k => (a : ℂ) * (Sim.eps_xy L0 avg eps).1 k, fun k => (a : ℂ) * (Sim.eps_xy L0 avg eps).2 k) := by
  have hE : ((EPSILON_0 * (a * L0) : ℝ) : ℂ) = (a : ℂ) * ((EPSILON_0 * L0 : ℝ) : ℂ) := by push_cast; ring
  unfold Sim.eps_xy
  simp only [hE, mul_assoc]
  cases avg
  · rfl
  · simp only [if_true, grid_average_smul' (a : ℂ)]
    rfl

/-- The derivative matrices and the system matrix scale with the unit. -/
theorem Spec.SameDevice.system {a : ℝ} {s s' : Sim Nx Ny} (h : Spec.SameDevice a s s') (ha : 0 < a) (hv : s.Valid) (hv' : s'.Valid) (hx : 1 < Nx) (hy : 1 < Ny) :
    s'.derivs = ⟨(a : ℂ) • s.derivs.Dyb, (a : ℂ) • s.derivs.Dxb, (a : ℂ) • s.derivs.Dxf, (a : ℂ) • s.derivs.Dyf⟩ ∧ s'.A = (a : ℂ) • s.A := by
  have hac : (a : ℂ) ≠ 0 := by exact_mod_cast ha.ne'
  have hD : mkDerivs s'.omega s'.xrange s'.yrange Nx Ny s'.NPML s'.L0 =
      ⟨(a : ℂ) • s.derivs.Dyb, (a : ℂ) • s.derivs.Dxb, (a : ℂ) • s.derivs.Dxf, (a : ℂ) • s.derivs.Dyf⟩ := by
    rw [hv'.xr, hv'.yr, h.omega, h.NPML, h.L0, h.dl, mkDerivs_unit a ha _ _ _ _ hx hy, ← hv.xr, ← hv.yr, ← hv.derivs_eq]
  refine ⟨hv'.derivs_eq.trans hD, ?_⟩
  have hM : ((MU_0 * (a * s.L0) : ℝ) : ℂ) = (a : ℂ) * ((MU_0 * s.L0 : ℝ) : ℂ) := by push_cast; ring
  have hE : ((EPSILON_0 * (a * s.L0) : ℝ) : ℂ) = (a : ℂ) * ((EPSILON_0 * s.L0 : ℝ) : ℂ) := by push_cast; ring
  have hA := hv.A_eq
  have hA' := hv'.A_eq
  rw [h.pol, h.eps_r] at hA'
  unfold construct_A at hA hA'
  simp only [← hv.derivs_eq] at hA
  simp only [hD] at hA'
  simp only [h.omega, h.L0, hM, hE] at hA'
  rw [hA, hA']
  cases s.pol with
  | Ez =>
    simp only [Matrix.smul_mul, Matrix.mul_smul, smul_smul, smul_add, mul_assoc, spdiag_smul' (a : ℂ)]
    have e : 1 / ((a : ℂ) * ((MU_0 * s.L0 : ℝ) : ℂ)) * ((a : ℂ) * (a : ℂ)) = (a : ℂ) * (1 / ((MU_0 * s.L0 : ℝ) : ℂ)) := by
      rw [one_div, mul_inv, one_div]
      field_simp
    rw [e, mul_comm ((s.omega : ℂ) ^ 2) (a : ℂ)]
  | Hz =>
    simp only [if_true, mul_assoc (a : ℂ), grid_average_smul' (a : ℂ), Matrix.smul_mul, Matrix.mul_smul, smul_smul, smul_add]
    have e : ∀ v : Grid Nx Ny ℂ, spdiag (fun k => 1 / flatten (fun i j => (a : ℂ) * v i j) k) = (a : ℂ)⁻¹ • spdiag (fun k => 1 / flatten v k) := by
      intro v
      rw [← spdiag_smul']
      congr 1
      funext k
      show 1 / ((a : ℂ) * flatten v k) = (a : ℂ)⁻¹ * (1 / flatten v k)
      rw [one_div, mul_inv, one_div]
    simp only [e, Matrix.smul_mul, Matrix.mul_smul, smul_smul]
    have e2 : (a : ℂ) * (a : ℂ) * (a : ℂ)⁻¹ = (a : ℂ) := by field_simp
    rw [e2]
    congr 2
    ring

/-! ## Linear solves -/

theorem flatten_inUnit (a : ℝ) (f : Grid Nx Ny ℂ) : flatten (Spec.inUnit a f) = (a : ℂ) • flatten f := rfl

theorem unflatten_smul (c : ℂ) (v : Vec (Nx * Ny) ℂ) : (unflatten (c • v) : Grid Nx Ny ℂ) = fun i j => c * unflatten v i j := rfl

theorem Spec.SameDevice.rhs {a : ℝ} {s s' : Sim Nx Ny} (h : Spec.SameDevice a s s') : s'.rhs = (a : ℂ) ^ 2 • s.rhs := by
  funext k
  simp only [Sim.rhs, h.src, h.omega, Pi.smul_apply, smul_eq_mul]
  show (a : ℂ) ^ 2 * flatten s.src k * Complex.I * (s.omega : ℂ) = _
  ring

/-- Solving the rescaled system. -/
theorem solver_unit {env : Env} (he : env.Exact) {n : ℕ} {A : Mat n ℂ} (hA : A.det ≠ 0) {c : ℂ} (hc : c ≠ 0) (b : Vec n ℂ) :
    solver_direct env (c • A) (c ^ 2 • b) = c • solver_direct env A b := by
  refine solver_direct_unique he ?_ ?_
  · rw [Matrix.det_smul]
    exact mul_ne_zero (pow_ne_zero _ hc) hA
  · rw [Matrix.mulVec_smul, Matrix.smul_mulVec, solver_direct_spec he (Or.inl hA), smul_smul, sq]

theorem Spec.SameDevice.in_plane {a : ℝ} {s s' : Sim Nx Ny} (h : Spec.SameDevice a s s') (ha : 0 < a) (hv : s.Valid) (hv' : s'.Valid) (hx : 1 < Nx) (hy : 1 < Ny) (avg : Bool)
    (eps : Grid Nx Ny ℂ) (X : Vec (Nx * Ny) ℂ) : s'.in_plane avg eps ((a : ℂ) • X) = Spec.inUnit3 a (s.in_plane avg eps X) := by
  have hac : (a : ℂ) ≠ 0 := by exact_mod_cast ha.ne'
  obtain ⟨hd, -⟩ := h.system ha hv hv' hx hy
  unfold Sim.in_plane
  rw [h.pol]
  cases s.pol with
  | Ez =>
    have hM : ((MU_0 * (a * s.L0) : ℝ) : ℂ) = (a : ℂ) * ((MU_0 * s.L0 : ℝ) : ℂ) := by push_cast; ring
    have e : ∀ z : ℂ, z / ((a : ℂ) * ((MU_0 * s.L0 : ℝ) : ℂ)) * ((a : ℂ) * (a : ℂ)) = (a : ℂ) * (z / ((MU_0 * s.L0 : ℝ) : ℂ)) := fun z => by
      rw [div_eq_mul_inv, mul_inv, div_eq_mul_inv]
      field_simp
    simp only [hd, h.L0, h.omega, hM, Matrix.mulVec_smul, Matrix.smul_mulVec, smul_smul, e]
    simp only [mul_smul]
    rfl
  | Hz =>
    have e : ∀ v : Vec (Nx * Ny) ℂ, spdiag (fun k => 1 / ((a : ℂ) * v k)) = (a : ℂ)⁻¹ • spdiag (fun k => 1 / v k) := by
      intro v
      rw [← spdiag_smul']
      congr 1
      funext k
      rw [one_div, mul_inv, one_div]
    have e2 : ∀ z : ℂ, z * (a : ℂ) * (a : ℂ) * (a : ℂ)⁻¹ = (a : ℂ) * z := fun z => by field_simp
    simp only [hd, h.L0, h.omega, eps_xy_unit, e, Matrix.smul_mul, Matrix.mul_smul, Matrix.mulVec_smul, Matrix.smul_mulVec, smul_smul, ← mul_assoc, e2]
    simp only [mul_smul]
    rfl

theorem store_unit (a : ℝ) (p : Pol) (f : Fields Nx Ny) (t : Grid Nx Ny ℂ × Grid Nx Ny ℂ × Grid Nx Ny ℂ) : Sim.store p (Spec.scaled a f) (Spec.inUnit3 a t) = Spec.scaled a (Sim.store p f t) := by
  funext c
  cases p <;> cases c <;> rfl

/-- **C64, linear solves.** The same device in another length unit gives the same fields, converted: returned and stored. -/
theorem C64_linear (env : Env) (he : env.Exact) (a : ℝ) (ha : 0 < a) (s s' : Sim Nx Ny) (h : Spec.SameDevice a s s') (hv : s.Valid) (hv' : s'.Valid) (hx : 1 < Nx) (hy : 1 < Ny)
    (hdet : s.A.det ≠ 0) (avg : Bool) :
    (s'.solve_fields env false avg).1 = (s.solve_fields env false avg).1.map (Spec.inUnit3 a) ∧ Spec.SameDevice a (s.solve_fields env false avg).2 (s'.solve_fields env false avg).2 := by
  have hac : (a : ℂ) ≠ 0 := by exact_mod_cast ha.ne'
  have hX : solver_direct env s'.A s'.rhs = (a : ℂ) • solver_direct env s.A s.rhs := by
    rw [(h.system ha hv hv' hx hy).2, h.rhs, solver_unit he hdet hac]
  have ht : s'.in_plane avg s'.eps_r (solver_direct env s'.A s'.rhs) = Spec.inUnit3 a (s.in_plane avg s.eps_r (solver_direct env s.A s.rhs)) := by
    rw [hX, h.eps_r, h.in_plane ha hv hv' hx hy]
  simp only [Sim.solve_fields, if_true, ht]
  refine ⟨rfl, { h with fields := ?_ }⟩
  rw [h.pol, h.fields, store_unit]

/-! ## Kerr solves -/

theorem kerrSum_unit (a : ℝ) (ha : 0 < a) (l : List (Nonlinearity Nx Ny)) (eps : Grid Nx Ny ℂ) (i : Fin Nx) (j : Fin Ny) :
    Spec.kerrSum (l.map fun n => { n with chi := n.chi / a ^ 2 }) eps i j = Spec.kerrSum l eps i j / (a : ℂ) ^ 2 := by
  have hac : (a : ℂ) ≠ 0 := by exact_mod_cast ha.ne'
  unfold Spec.kerrSum
  rw [List.map_map]
  induction l with
  | nil => simp
  | cons n l ih =>
    simp only [List.map_cons, List.sum_cons] at ih ⊢
    rw [ih, add_div]
    congr 1
    simp only [Function.comp, Spec.kerrCoef]
    push_cast
    cases n.scale <;> simp only <;> ring

theorem Spec.SameDevice.compute_nl {a : ℝ} {s s' : Sim Nx Ny} (h : Spec.SameDevice a s s') (ha : 0 < a) (F : Grid Nx Ny ℂ) :
    Spec.SameDevice a (s.compute_nl F) (s'.compute_nl (Spec.inUnit a F)) ∧ (s'.compute_nl (Spec.inUnit a F)).eps_nl = (s.compute_nl F).eps_nl ∧
      (∀ i j, (s'.compute_nl (Spec.inUnit a F)).dnl_de i j = (s.compute_nl F).dnl_de i j / a) ∧ kerrMat s' (Spec.inUnit a F) = (a : ℂ) • kerrMat s F := by
  have hac : (a : ℂ) ≠ 0 := by exact_mod_cast ha.ne'
  have hn : ∀ i j, ((‖Spec.inUnit a F i j‖ ^ 2 : ℝ) : ℂ) = (a : ℂ) ^ 2 * ((‖F i j‖ ^ 2 : ℝ) : ℂ) := fun i j => by
    rw [Spec.inUnit, norm_mul, Complex.norm_real, Real.norm_eq_abs, abs_of_pos ha]
    push_cast
    ring
  have he : (s'.compute_nl (Spec.inUnit a F)).eps_nl = (s.compute_nl F).eps_nl := by
    funext i j
    rw [compute_nl_eps_nl, compute_nl_eps_nl, h.nonlinearity, h.eps_r, kerrSum_unit a ha, hn]
    field_simp
  refine ⟨{ h with }, he, ?_, ?_⟩
  · intro i j
    rw [compute_nl_dnl_de, compute_nl_dnl_de, h.nonlinearity, h.eps_r, kerrSum_unit a ha, Spec.inUnit, map_mul, Complex.conj_ofReal]
    field_simp
  · have h1 := compute_nl_Anl s F
    have h2 := compute_nl_Anl s' (Spec.inUnit a F)
    have e : (s'.compute_nl (Spec.inUnit a F)).Anl = some ((a : ℂ) • kerrMat s F) := by
      show some (spdiag fun k => ((s'.omega ^ 2 * EPSILON_0 * s'.L0 : ℝ) : ℂ) * flatten (s'.compute_nl (Spec.inUnit a F)).eps_nl k) = _
      have h1' : spdiag (fun k => ((s.omega ^ 2 * EPSILON_0 * s.L0 : ℝ) : ℂ) * flatten (s.compute_nl F).eps_nl k) = kerrMat s F := Option.some.inj h1
      rw [he, h.omega, h.L0, ← h1', ← spdiag_smul']
      congr 2
      funext k
      push_cast
      ring
    rw [h2] at e
    exact Option.some.inj e

/-- Both simulations are in the states the API produces. -/
def UnitPair (a : ℝ) (s s' : Sim Nx Ny) : Prop := Spec.SameDevice a s s' ∧ s.Valid ∧ s'.Valid

theorem UnitPair.compute_nl {a : ℝ} {s s' : Sim Nx Ny} (h : UnitPair a s s') (ha : 0 < a) (F : Grid Nx Ny ℂ) : UnitPair a (s.compute_nl F) (s'.compute_nl (Spec.inUnit a F)) :=
  ⟨(h.1.compute_nl ha F).1, { h.2.1 with }, { h.2.2 with }⟩

theorem bornStep_unit {env : Env} (he : env.Exact) {a : ℝ} (ha : 0 < a) {s s' : Sim Nx Ny} (h : UnitPair a s s') (hx : 1 < Nx) (hy : 1 < Ny) (F : Grid Nx Ny ℂ) (hdet : (bornMat s F).det ≠ 0) :
    bornStep env s' (Spec.inUnit a F) = Spec.inUnit3 a (bornStep env s F) := by
  have hac : (a : ℂ) ≠ 0 := by exact_mod_cast ha.ne'
  obtain ⟨-, h2, -, h4⟩ := h.1.compute_nl ha F
  have hM : bornMat s' (Spec.inUnit a F) = (a : ℂ) • bornMat s F := by
    unfold bornMat
    rw [h4, (h.1.system ha h.2.1 h.2.2 hx hy).2, smul_add]
  unfold bornStep
  rw [hM, h.1.rhs, solver_unit he hdet hac, h.1.in_plane ha h.2.1 h.2.2 hx hy, h2, h.1.eps_r]

theorem laNorm_unit (a : ℝ) (ha : 0 < a) (f : Grid Nx Ny ℂ) : laNorm (fun i j => (a : ℂ) * f i j) = a * laNorm f := by
  unfold laNorm
  have e : ∑ i, ∑ j, ‖(a : ℂ) * f i j‖ ^ 2 = a ^ 2 * ∑ i, ∑ j, ‖f i j‖ ^ 2 := by
    simp only [Finset.mul_sum]
    refine Finset.sum_congr rfl fun i _ => Finset.sum_congr rfl fun j _ => ?_
    rw [norm_mul, Complex.norm_real, Real.norm_eq_abs, abs_of_pos ha]
    ring
  rw [e, Real.sqrt_mul (sq_nonneg a), Real.sqrt_sq ha.le]

theorem convergence_unit (a : ℝ) (ha : 0 < a) (F G : Grid Nx Ny ℂ) : convergence (Spec.inUnit a F) (Spec.inUnit a G) = convergence F G := by
  unfold convergence
  have h1 : (laNorm fun i j => Spec.inUnit a F i j - Spec.inUnit a G i j) = a * laNorm fun i j => F i j - G i j := by
    rw [← laNorm_unit a ha]
    congr 1
    funext i j
    simp only [Spec.inUnit]
    ring
  have h2 : laNorm (Spec.inUnit a F) = a * laNorm F := laNorm_unit a ha F
  rw [h1, h2]
  unfold PyFloat.div
  by_cases hF : laNorm F = 0
  · rw [hF]
    simp only [mul_zero, ne_eq, not_true_eq_false, if_false]
    by_cases h : 0 < laNorm fun i j => F i j - G i j
    · rw [if_pos h, if_pos (mul_pos ha h)]
    · have h0 : (laNorm fun i j => F i j - G i j) = 0 := le_antisymm (not_lt.1 h) (laNorm_nonneg _)
      rw [h0, mul_zero]
  · rw [if_pos hF, if_pos (mul_ne_zero ha.ne' hF), mul_div_mul_left _ _ ha.ne']

/-- The starting field in the new unit. -/
theorem startField_unit {env : Env} (he : env.Exact) {a : ℝ} (ha : 0 < a) {s s' : Sim Nx Ny} (h : UnitPair a s s') (hx : 1 < Nx) (hy : 1 < Ny) (hdet : s.A.det ≠ 0) (E : Option (Grid Nx Ny ℂ)) :
    (startField env s' (E.map (Spec.inUnit a))).1 = (startField env s E).1.map (Spec.inUnit a) ∧ UnitPair a (startField env s E).2 (startField env s' (E.map (Spec.inUnit a))).2 := by
  cases E with
  | some e => exact ⟨rfl, h⟩
  | none =>
    unfold startField
    simp only [Option.map_none]
    have hf : s'.fields s'.pol.comp = (s.fields s.pol.comp).map (Spec.inUnit a) := by rw [h.1.fields, h.1.pol]; rfl
    rw [hf]
    cases s.fields s.pol.comp with
    | some f => exact ⟨rfl, h⟩
    | none =>
      obtain ⟨h1, h2⟩ := C64_linear env he a ha s s' h.1 h.2.1 h.2.2 hx hy hdet false
      simp only [Option.map_none]
      refine ⟨?_, h2, { h.2.1 with }, { h.2.2 with }⟩
      rw [h1]
      rfl

/-- The loop variables in the new unit. -/
def unitLast (a : ℝ) (t : Grid Nx Ny ℂ × Grid Nx Ny ℂ × Grid Nx Ny ℂ × PyFloat) : Grid Nx Ny ℂ × Grid Nx Ny ℂ × Grid Nx Ny ℂ × PyFloat :=
  (Spec.inUnit a t.1, Spec.inUnit a t.2.1, Spec.inUnit a t.2.2.1, t.2.2.2)

theorem bornLoop_unit {env : Env} (he : env.Exact) {a : ℝ} (ha : 0 < a) (hx : 1 < Nx) (hy : 1 < Ny) (thr : ℝ) (fuel istep : ℕ) (s s' : Sim Nx Ny) (h : UnitPair a s s')
    (hdet : ∀ F, (bornMat s F).det ≠ 0) (F : Grid Nx Ny ℂ) (conv : List PyFloat) (last) :
    (bornLoop env thr fuel istep s' (Spec.inUnit a F) conv (last.map (unitLast a))).1 = (bornLoop env thr fuel istep s F conv last).1.map (fun r => (r.1.map (unitLast a), r.2)) ∧
      UnitPair a (bornLoop env thr fuel istep s F conv last).2 (bornLoop env thr fuel istep s' (Spec.inUnit a F) conv (last.map (unitLast a))).2 := by
  induction fuel generalizing istep s s' F conv last with
  | zero => exact ⟨rfl, h⟩
  | succ fuel ih =>
    have hb := bornStep_unit he ha h hx hy F (hdet F)
    have hc : convergence (bornStep env s' (Spec.inUnit a F)).2.2 (Spec.inUnit a F) = convergence (bornStep env s F).2.2 F := by
      rw [hb]; exact convergence_unit a ha _ _
    rw [bornLoop, bornLoop]
    simp only [solve_fields_nl_step]
    by_cases hlt : (convergence (bornStep env s F).2.2 F).Lt thr
    · rw [if_pos hlt, if_pos (by rw [hc]; exact hlt), hc, hb]
      exact ⟨rfl, h.compute_nl ha F⟩
    · rw [if_neg hlt, if_neg (by rw [hc]; exact hlt), hc, hb]
      exact ih (istep + 1) _ _ (h.compute_nl ha F) hdet (bornStep env s F).2.2 (conv.set istep (convergence (bornStep env s F).2.2 F))
        (some ((bornStep env s F).1, (bornStep env s F).2.1, (bornStep env s F).2.2, convergence (bornStep env s F).2.2 F))

theorem born_solve_unit {env : Env} (he : env.Exact) {a : ℝ} (ha : 0 < a) (hx : 1 < Nx) (hy : 1 < Ny) (s s' : Sim Nx Ny) (h : UnitPair a s s') (hA : s.A.det ≠ 0)
    (hdet : ∀ F, (bornMat s F).det ≠ 0) (E : Option (Grid Nx Ny ℂ)) (thr : ℝ) (n : ℕ) :
    (born_solve env s' (E.map (Spec.inUnit a)) thr n).1 = (born_solve env s E thr n).1.map (Spec.inUnitNl a) ∧
      UnitPair a (born_solve env s E thr n).2 (born_solve env s' (E.map (Spec.inUnit a)) thr n).2 := by
  obtain ⟨h1, h2⟩ := startField_unit he ha h hx hy hA E
  obtain ⟨E0, fl, hs, -⟩ := startField_spec env s E
  unfold born_solve
  rw [hs] at h1 h2 ⊢
  generalize startField env s' (E.map (Spec.inUnit a)) = R at h1 h2 ⊢
  obtain ⟨R1, s1'⟩ := R
  simp only at h1 h2
  subst h1
  simp only [Except.map]
  obtain ⟨h3, h4⟩ := bornLoop_unit he ha hx hy thr n 0 _ s1' h2 hdet E0 (List.replicate n (.fin 0)) none
  simp only [Option.map_none] at h3 h4
  generalize bornLoop env thr n 0 s1' (Spec.inUnit a E0) (List.replicate n (.fin 0)) none = R at h3 h4 ⊢
  generalize bornLoop env thr n 0 { s with fields := fl } E0 (List.replicate n (.fin 0)) none = Q at h3 h4 ⊢
  obtain ⟨Q1, sQ⟩ := Q
  obtain ⟨R1, sR⟩ := R
  simp only at h3 h4
  subst h3
  rcases Q1 with e | ⟨_ | l, c⟩
  · exact ⟨rfl, h4⟩
  · exact ⟨rfl, h4⟩
  · exact ⟨rfl, h4⟩

theorem Areal_smul {n : ℕ} (a : ℝ) (A B : Mat n ℂ) : Areal ((a : ℂ) • A) ((a : ℂ) • B) = a • Areal A B := by
  have hr : ∀ (M : Mat n ℂ) i j, (((a : ℂ) • M) i j).re = a * (M i j).re := fun M i j => Complex.re_ofReal_mul _ _
  have hi : ∀ (M : Mat n ℂ) i j, (((a : ℂ) • M) i j).im = a * (M i j).im := fun M i j => Complex.im_ofReal_mul _ _
  ext p q
  rcases p with i | i <;> rcases q with j | j
  · show (((a : ℂ) • A) i j).re + (((a : ℂ) • B) i j).re = a * ((A i j).re + (B i j).re)
    rw [hr, hr]; ring
  · show -(((a : ℂ) • A) i j).im + (((a : ℂ) • B) i j).im = a * (-(A i j).im + (B i j).im)
    rw [hi, hi]; ring
  · show (((a : ℂ) • A) i j).im + (((a : ℂ) • B) i j).im = a * ((A i j).im + (B i j).im)
    rw [hi, hi]; ring
  · show (((a : ℂ) • A) i j).re - (((a : ℂ) • B) i j).re = a * ((A i j).re - (B i j).re)
    rw [hr, hr]; ring

theorem complex2real_unit {env : Env} (he : env.Exact) {n : ℕ} (a : ℝ) (ha : 0 < a) (A B : Mat n ℂ) (b : Vec n ℂ) (hdet : (Areal A B).det ≠ 0) :
    solver_complex2real env ((a : ℂ) • A) ((a : ℂ) • B) ((a : ℂ) ^ 2 • b) = (solver_complex2real env A B b).map ((a : ℂ) • ·) := by
  have hac : (a : ℂ) ≠ 0 := by exact_mod_cast ha.ne'
  unfold solver_complex2real
  by_cases hb : b = 0
  · rw [if_pos hb, if_pos (by rw [hb, smul_zero])]
    simp [Except.map]
  · rw [if_neg hb, if_neg (fun h0 => hb ((smul_eq_zero.1 h0).resolve_left (pow_ne_zero 2 hac)))]
    cases env.backend with
    | scipy => rfl
    | pardiso =>
      simp only [Except.map]
      set r := Sum.elim (fun k => (b k).re) (fun k => (b k).im) with hr
      have hr' : Sum.elim (fun k => (((a : ℂ) ^ 2 • b) k).re) (fun k => (((a : ℂ) ^ 2 • b) k).im) = a ^ 2 • r := by
        have e : ∀ z : ℂ, (a : ℂ) ^ 2 * z = ((a ^ 2 : ℝ) : ℂ) * z := fun z => by push_cast; rfl
        funext k
        rcases k with k | k
        · show ((a : ℂ) ^ 2 * b k).re = a ^ 2 * (b k).re
          rw [e, Complex.re_ofReal_mul]
        · show ((a : ℂ) ^ 2 * b k).im = a ^ 2 * (b k).im
          rw [e, Complex.im_ofReal_mul]
      have hsol : env.solveR (Areal ((a : ℂ) • A) ((a : ℂ) • B)) (a ^ 2 • r) = a • env.solveR (Areal A B) r := by
        rw [Areal_smul]
        have hd : (a • Areal A B).det ≠ 0 := by
          rw [Matrix.det_smul]
          exact mul_ne_zero (pow_ne_zero _ ha.ne') hdet
        have h1 := he.solveR_spec _ (a ^ 2 • r) hd
        have h2 := he.solveR_spec _ r hdet
        have h3 : (a • Areal A B) *ᵥ (a • env.solveR (Areal A B) r) = a ^ 2 • r := by
          rw [Matrix.smul_mulVec, Matrix.mulVec_smul, h2, smul_smul, sq]
        exact Matrix.mulVec_injective_of_isUnit ((Matrix.isUnit_iff_isUnit_det _).2 (isUnit_iff_ne_zero.2 hd)) (h1.trans h3.symm)
      rw [hr', hsol]
      congr 1
      funext k
      simp only [Pi.smul_apply, smul_eq_mul, Complex.ofReal_mul]
      ring

theorem jac_unit {a : ℝ} (ha : 0 < a) {s s' : Sim Nx Ny} (h : UnitPair a s s') (hx : 1 < Nx) (hy : 1 < Ny) (F : Grid Nx Ny ℂ) :
    (nl_eq_and_jac s' (Spec.inUnit a F)).1 = ((a : ℂ) ^ 2 • (nl_eq_and_jac s F).1.1, (a : ℂ) • (nl_eq_and_jac s F).1.2.1, (a : ℂ) • (nl_eq_and_jac s F).1.2.2) := by
  have hac : (a : ℂ) ≠ 0 := by exact_mod_cast ha.ne'
  obtain ⟨-, -, h3, h4⟩ := h.1.compute_nl ha F
  have hA := (h.1.system ha h.2.1 h.2.2 hx hy).2
  have hM : (s'.compute_nl (Spec.inUnit a F)).A + (s'.compute_nl (Spec.inUnit a F)).Anl.getD 0 = (a : ℂ) • ((s.compute_nl F).A + (s.compute_nl F).Anl.getD 0) := by
    rw [compute_nl_Anl, compute_nl_Anl, smul_add]
    show s'.A + kerrMat s' _ = (a : ℂ) • s.A + (a : ℂ) • kerrMat s F
    rw [hA, h4]
  have hE : ((EPSILON_0 * (a * s.L0) : ℝ) : ℂ) = (a : ℂ) * ((EPSILON_0 * s.L0 : ℝ) : ℂ) := by push_cast; ring
  have hd : ∀ k, flatten (s'.compute_nl (Spec.inUnit a F)).dnl_de k * (s'.omega : ℂ) ^ 2 * ((EPSILON_0 * s'.L0 : ℝ) : ℂ) =
      flatten (s.compute_nl F).dnl_de k * (s.omega : ℂ) ^ 2 * ((EPSILON_0 * s.L0 : ℝ) : ℂ) := by
    intro k
    rw [h.1.omega, h.1.L0, hE]
    simp only [flatten, h3]
    field_simp
  have hr : (s'.compute_nl (Spec.inUnit a F)).rhs = (a : ℂ) ^ 2 • (s.compute_nl F).rhs := (h.1.compute_nl ha F).1.rhs
  unfold nl_eq_and_jac
  simp only [hM, hd, hr]
  refine Prod.ext ?_ (Prod.ext ?_ ?_)
  · funext k
    simp only [flatten_inUnit, Matrix.smul_mulVec, Matrix.mulVec_smul, Pi.smul_apply, smul_eq_mul]
    ring
  · simp only [smul_add, ← spdiag_smul']
    congr 2
    funext k
    simp only [flatten_inUnit, Pi.smul_apply, smul_eq_mul]
    ring
  · simp only [← spdiag_smul']
    congr 1
    funext k
    simp only [flatten_inUnit, Pi.smul_apply, smul_eq_mul]
    ring

/-- The Jacobian of the Kerr system at the field `F`, as a real matrix, is regular. -/
def Spec.JacRegular (s : Sim Nx Ny) (F : Grid Nx Ny ℂ) : Prop := (Areal (nl_eq_and_jac s F).1.2.1 (nl_eq_and_jac s F).1.2.2).det ≠ 0

theorem newtonLoop_unit {env : Env} (he : env.Exact) {a : ℝ} (ha : 0 < a) (hx : 1 < Nx) (hy : 1 < Ny) (thr : ℝ) (fuel istep : ℕ) (s s' : Sim Nx Ny) (h : UnitPair a s s')
    (hdet : ∀ F, Spec.JacRegular s F) (F : Grid Nx Ny ℂ) (conv : List PyFloat) (last) :
    (newtonLoop env thr fuel istep s' (Spec.inUnit a F) conv last).1 = (newtonLoop env thr fuel istep s F conv last).1.map (fun r => (Spec.inUnit a r.1, r.2)) ∧
      UnitPair a (newtonLoop env thr fuel istep s F conv last).2 (newtonLoop env thr fuel istep s' (Spec.inUnit a F) conv last).2 := by
  induction fuel generalizing istep s s' F conv last with
  | zero => exact ⟨rfl, h⟩
  | succ fuel ih =>
    have hj := jac_unit ha h hx hy F
    have hs := complex2real_unit he a ha (nl_eq_and_jac s F).1.2.1 (nl_eq_and_jac s F).1.2.2 (nl_eq_and_jac s F).1.1 (hdet F)
    have hp : UnitPair a (nl_eq_and_jac s F).2 (nl_eq_and_jac s' (Spec.inUnit a F)).2 := h.compute_nl ha F
    have hdet' : ∀ G, Spec.JacRegular (nl_eq_and_jac s F).2 G := hdet
    rw [newtonLoop, newtonLoop]
    simp only [hj, hs]
    generalize solver_complex2real env (nl_eq_and_jac s F).1.2.1 (nl_eq_and_jac s F).1.2.2 (nl_eq_and_jac s F).1.1 = R
    rcases R with e | d
    · exact ⟨rfl, hp⟩
    · simp only [Except.map]
      have hE : (fun i j => Spec.inUnit a F i j - unflatten ((a : ℂ) • d) i j : Grid Nx Ny ℂ) = Spec.inUnit a (fun i j => F i j - unflatten d i j) := by
        funext i j
        show (a : ℂ) * F i j - (a : ℂ) * unflatten d i j = (a : ℂ) * (F i j - unflatten d i j)
        ring
      have hc : convergence (Spec.inUnit a (fun i j => F i j - unflatten d i j)) (Spec.inUnit a F) = convergence (fun i j => F i j - unflatten d i j) F := convergence_unit a ha _ _
      rw [hE, hc]
      by_cases hlt : (convergence (fun i j => F i j - unflatten d i j) F).Lt thr
      · rw [if_pos hlt, if_pos hlt]
        exact ⟨rfl, hp⟩
      · rw [if_neg hlt, if_neg hlt]
        exact ih (istep + 1) _ _ hp hdet' _ _ _

theorem newtonLoop_bornMat (env : Env) (thr : ℝ) (fuel istep : ℕ) (s : Sim Nx Ny) (F : Grid Nx Ny ℂ) (conv : List PyFloat) (last) :
    ∀ G, bornMat (newtonLoop env thr fuel istep s F conv last).2 G = bornMat s G := by
  induction fuel generalizing istep s F conv last with
  | zero => exact fun _ => rfl
  | succ fuel ih =>
    intro G
    rw [newtonLoop]
    simp only
    split
    · rfl
    · split
      · rfl
      · rw [ih]; rfl

theorem newton_solve_unit {env : Env} (he : env.Exact) {a : ℝ} (ha : 0 < a) (hx : 1 < Nx) (hy : 1 < Ny) (s s' : Sim Nx Ny) (h : UnitPair a s s') (hA : s.A.det ≠ 0)
    (hdet : ∀ F, (bornMat s F).det ≠ 0) (hjac : ∀ F, Spec.JacRegular s F) (E : Option (Grid Nx Ny ℂ)) (thr : ℝ) (n : ℕ) :
    (newton_solve env s' (E.map (Spec.inUnit a)) thr n).1 = (newton_solve env s E thr n).1.map (Spec.inUnitNl a) ∧
      UnitPair a (newton_solve env s E thr n).2 (newton_solve env s' (E.map (Spec.inUnit a)) thr n).2 := by
  obtain ⟨h1, h2⟩ := startField_unit he ha h hx hy hA E
  obtain ⟨E0, fl, hs, -⟩ := startField_spec env s E
  unfold newton_solve
  rw [h.1.pol]
  cases s.pol with
  | Hz => exact ⟨rfl, h⟩
  | Ez =>
    rw [hs] at h1 h2
    simp only [hs]
    generalize startField env s' (E.map (Spec.inUnit a)) = R at h1 h2 ⊢
    obtain ⟨R1, s1'⟩ := R
    simp only at h1 h2
    subst h1
    simp only [Except.map]
    obtain ⟨h3, h4⟩ := newtonLoop_unit he ha hx hy thr n 0 _ s1' h2 hjac E0 (List.replicate n (.fin 0)) none
    have hbm := newtonLoop_bornMat env thr n 0 { s with fields := fl } E0 (List.replicate n (.fin 0)) none
    generalize newtonLoop env thr n 0 s1' (Spec.inUnit a E0) (List.replicate n (.fin 0)) none = R at h3 h4 ⊢
    generalize newtonLoop env thr n 0 { s with fields := fl } E0 (List.replicate n (.fin 0)) none = Q at h3 h4 hbm ⊢
    obtain ⟨Q1, sQ⟩ := Q
    obtain ⟨R1, sR⟩ := R
    simp only at h3 h4 hbm
    subst h3
    rcases Q1 with e | ⟨Ez, last, c⟩
    · exact ⟨rfl, h4⟩
    · simp only [Except.map, solve_fields_nl_step]
      have hb := bornStep_unit he ha h4 hx hy Ez (by rw [hbm]; exact hdet Ez)
      rw [hb]
      cases last with
      | none => exact ⟨rfl, h4.compute_nl ha Ez⟩
      | some _ => exact ⟨rfl, h4.compute_nl ha Ez⟩

theorem born_solve_mats (env : Env) (s : Sim Nx Ny) (E : Option (Grid Nx Ny ℂ)) (thr : ℝ) (n : ℕ) :
    (born_solve env s E thr (n + 1)).2.A = s.A ∧ (∀ F, bornMat (born_solve env s E thr (n + 1)).2 F = bornMat s F) ∧
      ∀ F, nl_eq_and_jac (born_solve env s E thr (n + 1)).2 F = ((nl_eq_and_jac s F).1, (born_solve env s E thr (n + 1)).2.compute_nl F) := by
  obtain ⟨E0, fl, m, conv, -, -, heq, -⟩ := born_solve_spec env s E thr n
  rw [heq]
  exact ⟨rfl, fun _ => rfl, fun _ => rfl⟩

/-- Storing a nonlinear result. -/
noncomputable def nlFinish : Except PyErr (NlResult Nx Ny) × Sim Nx Ny → Except PyErr (NlResult Nx Ny) × Sim Nx Ny
  | (.error e, s1) => (.error e, s1)
  | (.ok r, s1) => (.ok r, { s1 with fields_nl := Sim.store s1.pol s1.fields_nl (r.Fx, r.Fy, r.Fz) })

/-- **C64, Kerr solves.** With every solver string, threshold, iteration limit and starting field, the same device in another unit gives the same outcome: the same exception, or the
converted fields with the same convergence history; the stored fields are converted too. -/
theorem C64_nonlinear (env : Env) (he : env.Exact) (a : ℝ) (ha : 0 < a) (s s' : Sim Nx Ny) (h : Spec.SameDevice a s s') (hv : s.Valid) (hv' : s'.Valid) (hx : 1 < Nx) (hy : 1 < Ny)
    (hA : s.A.det ≠ 0) (hdet : ∀ F, (bornMat s F).det ≠ 0) (hjac : ∀ F, Spec.JacRegular s F) (E : Option (Grid Nx Ny ℂ)) (solver : NlSolver) (thr : ℝ) (n : ℕ) :
    (solve_fields_nl env s' (E.map (Spec.inUnit a)) solver thr n).1 = (solve_fields_nl env s E solver thr n).1.map (Spec.inUnitNl a) ∧
      Spec.SameDevice a (solve_fields_nl env s E solver thr n).2 (solve_fields_nl env s' (E.map (Spec.inUnit a)) solver thr n).2 := by
  have h0 : UnitPair a s s' := ⟨h, hv, hv'⟩
  have fin : ∀ (R R' : Except PyErr (NlResult Nx Ny) × Sim Nx Ny), R'.1 = R.1.map (Spec.inUnitNl a) → UnitPair a R.2 R'.2 →
      (nlFinish R').1 = (nlFinish R).1.map (Spec.inUnitNl a) ∧ Spec.SameDevice a (nlFinish R).2 (nlFinish R').2 := by
    rintro ⟨e | r, s1⟩ ⟨R1, s1'⟩ hR hs
    · simp only [Except.map] at hR
      subst hR
      exact ⟨rfl, hs.1⟩
    · simp only [Except.map] at hR
      subst hR
      refine ⟨rfl, { hs.1 with fields_nl := ?_ }⟩
      show Sim.store s1'.pol s1'.fields_nl _ = Spec.scaled a (Sim.store s1.pol s1.fields_nl (r.Fx, r.Fy, r.Fz))
      rw [hs.1.pol, hs.1.fields_nl]
      exact store_unit a _ _ (r.Fx, r.Fy, r.Fz)
  unfold solve_fields_nl
  refine fin _ _ ?_ ?_
  · cases solver with
    | born => exact (born_solve_unit he ha hx hy s s' h0 hA hdet E thr n).1
    | newton => exact (newton_solve_unit he ha hx hy s s' h0 hA hdet hjac E thr n).1
    | LM => rfl
    | other => rfl
    | hybrid =>
      obtain ⟨h1, h2⟩ := born_solve_unit he ha hx hy s s' h0 hA hdet E thr 20
      obtain ⟨m1, m2, m3⟩ := born_solve_mats env s E thr 19
      simp only
      generalize born_solve env s' (E.map (Spec.inUnit a)) thr 20 = R' at h1 h2 ⊢
      generalize born_solve env s E thr 20 = R at h1 h2 m1 m2 m3 ⊢
      obtain ⟨R1', s1'⟩ := R'
      obtain ⟨e | r, s1⟩ := R
      · simp only [Except.map] at h1
        subst h1
        rfl
      · simp only [Except.map] at h1 h2 m1 m2 m3
        subst h1
        simp only
        by_cases hg : ((r.conv.getLast?).getD (.fin 0)).Gt 1e-10
        · rw [if_pos hg, if_pos (show (((Spec.inUnitNl a r).conv.getLast?).getD (.fin 0)).Gt 1e-10 from hg)]
          exact (newton_solve_unit he ha hx hy s1 s1' h2 (by rw [m1]; exact hA) (fun F => by rw [m2]; exact hdet F)
            (fun F => by unfold Spec.JacRegular; rw [m3]; exact hjac F) (some r.Fz) thr 20).1
        · rw [if_neg hg, if_neg (show ¬ (((Spec.inUnitNl a r).conv.getLast?).getD (.fin 0)).Gt 1e-10 from hg)]
          rfl
  · cases solver with
    | born => exact (born_solve_unit he ha hx hy s s' h0 hA hdet E thr n).2
    | newton => exact (newton_solve_unit he ha hx hy s s' h0 hA hdet hjac E thr n).2
    | LM => exact h0
    | other => exact h0
    | hybrid =>
      obtain ⟨h1, h2⟩ := born_solve_unit he ha hx hy s s' h0 hA hdet E thr 20
      obtain ⟨m1, m2, m3⟩ := born_solve_mats env s E thr 19
      simp only
      generalize born_solve env s' (E.map (Spec.inUnit a)) thr 20 = R' at h1 h2 ⊢
      generalize born_solve env s E thr 20 = R at h1 h2 m1 m2 m3 ⊢
      obtain ⟨R1', s1'⟩ := R'
      obtain ⟨e | r, s1⟩ := R
      · simp only [Except.map] at h1
        subst h1
        exact h2
      · simp only [Except.map] at h1 h2 m1 m2 m3
        subst h1
        simp only
        by_cases hg : ((r.conv.getLast?).getD (.fin 0)).Gt 1e-10
        · rw [if_pos hg, if_pos (show (((Spec.inUnitNl a r).conv.getLast?).getD (.fin 0)).Gt 1e-10 from hg)]
          exact (newton_solve_unit he ha hx hy s1 s1' h2 (by rw [m1]; exact hA) (fun F => by rw [m2]; exact hdet F)
            (fun F => by unfold Spec.JacRegular; rw [m3]; exact hjac F) (some r.Fz) thr 20).2
        · rw [if_neg hg, if_neg (show ¬ (((Spec.inUnitNl a r).conv.getLast?).getD (.fin 0)).Gt 1e-10 from hg)]
          exact h2

/-! ## Building the device -/

/-- **C64, constructor.** The constructor maps the same device in two units to simulations of the same device, or rejects both. -/
theorem C64_init (a : ℝ) (ha : 0 < a) (omega : ℝ) (eps : Grid Nx Ny ℂ) (dl : ℝ) (NPML : Sim.NPMLArg) (pol : String) (L0 : ℝ) :
    (∃ e, Sim.init omega eps dl NPML pol L0 = .error e ∧ Sim.init omega eps (dl / a) NPML pol (a * L0) = .error e) ∨
      ∃ s s', Sim.init omega eps dl NPML pol L0 = .ok s ∧ Sim.init omega eps (dl / a) NPML pol (a * L0) = .ok s' ∧ Spec.SameDevice a s s' := by
  have hL : (0 < a * L0) ↔ 0 < L0 := mul_pos_iff_of_pos_left ha
  have hc : Sim.check_inputs omega (a * L0) NPML pol = Sim.check_inputs omega L0 NPML pol := by
    unfold Sim.check_inputs
    simp only [hL]
  unfold Sim.init
  rw [hc]
  rcases Sim.check_inputs omega L0 NPML pol with e | ⟨np, p⟩
  · exact Or.inl ⟨e, rfl, rfl⟩
  · refine Or.inr ⟨_, _, rfl, rfl, ⟨rfl, rfl, rfl, rfl, rfl, rfl, ?_, rfl, rfl, rfl⟩⟩
    funext i j
    simp [Sim.set_eps_r]

/-- **C64, nonlinear materials.** Adding the same material (its coefficient in SI units) keeps the two simulations describing the same device. -/
theorem C64_add_nl (a : ℝ) (ha : 0 < a) (s s' : Sim Nx Ny) (h : Spec.SameDevice a s s') (chi : ℝ) (region : Grid Nx Ny ℝ) (ty : String) (sc : Bool) (m : Option EpsMax) :
    (s'.add_nl chi region ty sc m).1 = (s.add_nl chi region ty sc m).1 ∧ Spec.SameDevice a (s.add_nl chi region ty sc m).2 (s'.add_nl chi region ty sc m).2 := by
  have hchi : chi / (a * s.L0) ^ 2 = chi / s.L0 ^ 2 / a ^ 2 := by rw [mul_pow, div_div, mul_comm]
  have key : ∀ n n' : Nonlinearity Nx Ny, n' = { n with chi := n.chi / a ^ 2 } →
      Spec.SameDevice a { s with nonlinearity := s.nonlinearity ++ [n] } { s' with nonlinearity := s'.nonlinearity ++ [n'] } := by
    rintro n n' rfl
    refine ⟨h.L0, h.dl, h.omega, h.NPML, h.pol, h.eps_r, h.src, ?_, h.fields, h.fields_nl⟩
    simp only [h.nonlinearity, List.map_append, List.map_cons, List.map_nil]
  unfold Sim.add_nl Nonlinearity.init
  by_cases ht : ty = "kerr"
  · rw [if_pos ht, if_pos ht]
    cases sc
    · exact ⟨rfl, key _ _ (by rw [h.L0, hchi])⟩
    · cases m with
      | none => exact ⟨rfl, h⟩
      | some m => exact ⟨rfl, key _ _ (by rw [h.L0, hchi])⟩
  · rw [if_neg ht, if_neg ht]
    exact ⟨rfl, h⟩

/-- **C64, measured power.** The flux probe reads `a` times as much (power per unit length, in the new unit). -/
theorem C64_flux (a : ℝ) (ha : 0 < a) (s s' : Sim Nx Ny) (h : Spec.SameDevice a s s') (dir : String) (center : ℤ × ℤ) (w : ℝ) (nl : Bool) :
    s'.flux_probe dir center w nl = (s.flux_probe dir center w nl).map (a * ·) := by
  have h1 := C52_quadratic s (a : ℂ) dir center w nl
  have hd : s'.flux_probe dir center w nl = (Sim.flux_probe { s with fields := Spec.scaled a s.fields, fields_nl := Spec.scaled a s.fields_nl } dir center w nl).map (· / a) := by
    unfold Sim.flux_probe
    simp only [h.fields, h.fields_nl, h.pol, h.dl]
    rcases Sim.probeInds dir center w with e | ⟨ax, ix, iy⟩
    · rfl
    · have fin : ∀ (f : Fields Nx Ny) c1 c2 (K : Grid Nx Ny ℂ → Grid Nx Ny ℂ → Except PyErr ℝ),
          (do let x ← Sim.getField f c1; let y ← Sim.getField f c2; let S ← K x y; return s.dl / a * S : Except PyErr ℝ) =
            (do let x ← Sim.getField f c1; let y ← Sim.getField f c2; let S ← K x y; return s.dl * S : Except PyErr ℝ).map (· / a) := by
        intro f c1 c2 K
        rcases Sim.getField f c1 with e | x
        · rfl
        · rcases Sim.getField f c2 with e | y
          · rfl
          · show (do let S ← K x y; return s.dl / a * S : Except PyErr ℝ) = (do let S ← K x y; return s.dl * S : Except PyErr ℝ).map (· / a)
            rcases K x y with e | S
            · rfl
            · show Except.ok _ = Except.ok _
              rw [div_mul_eq_mul_div]
      show (match s.pol, ax with | .Ez, .x => _ | .Ez, .y => _ | .Hz, .x => _ | .Hz, .y => _) = Except.map _ (match s.pol, ax with | .Ez, .x => _ | .Ez, .y => _ | .Hz, .x => _ | .Hz, .y => _)
      cases s.pol <;> cases ax <;> exact fin _ _ _ _
  rw [hd, h1]
  rcases s.flux_probe dir center w nl with e | r
  · rfl
  · show Except.ok _ = Except.ok _
    rw [Complex.norm_real, Real.norm_eq_abs, abs_of_pos ha]
    congr 1
    field_simp

/-! ## The hypotheses are met -/

/-- Any simulation, rewritten in a unit `a` times larger. -/
noncomputable def toUnit (a : ℝ) (s : Sim Nx Ny) : Sim Nx Ny :=
  let r := construct_A s.omega (0, Nx * (s.dl / a)) (0, Ny * (s.dl / a)) s.eps_r s.NPML s.pol (a * s.L0)
  { s with
    L0 := a * s.L0, dl := s.dl / a, xrange := (0, Nx * (s.dl / a)), yrange := (0, Ny * (s.dl / a)), src := fun i j => (a : ℂ) ^ 2 * s.src i j,
    nonlinearity := s.nonlinearity.map fun n => { n with chi := n.chi / a ^ 2 }, fields := Spec.scaled a s.fields, fields_nl := Spec.scaled a s.fields_nl, A := r.1, derivs := r.2 }

theorem toUnit_same (a : ℝ) (s : Sim Nx Ny) : Spec.SameDevice a s (toUnit a s) := ⟨rfl, rfl, rfl, rfl, rfl, rfl, rfl, rfl, rfl, rfl⟩

theorem toUnit_valid (a : ℝ) (ha : 0 < a) (s : Sim Nx Ny) (hv : s.Valid) : (toUnit a s).Valid :=
  ⟨mul_pos ha hv.L0_pos, hv.omega_pos, rfl, rfl, rfl, construct_A_derivs _ _ _ _ _ _ _ _⟩

/-- A lossy device with an absorbing layer, in microns and in nanometres. -/
example (env : Env) (he : env.Exact) : let s : Sim 4 3 := fsim 1 (fun _ _ => 2 + Complex.I) (fun _ _ => 1)
    ((toUnit 1000 s).solve_fields env false false).1 = (s.solve_fields env false false).1.map (Spec.inUnit3 1000) := by
  intro s
  refine (C64_linear env he 1000 (by norm_num) s _ (toUnit_same _ s) (fsim_valid _ _ _) (toUnit_valid _ (by norm_num) s (fsim_valid _ _ _)) (by norm_num) (by norm_num)
    (fsim_det (by norm_num) (by norm_num) _ _ _ fun i j => ?_) false).1
  refine le_trans ?_ (Complex.abs_re_le_norm _)
  simp

/-- A Kerr device, with any source, any starting field and any solver. -/
example (env : Env) (he : env.Exact) (src : Grid 2 2 ℂ) (E : Option (Grid 2 2 ℂ)) (solver : NlSolver) (thr : ℝ) (n : ℕ) :
    (solve_fields_nl env (toUnit 1000 (psim src)) (E.map (Spec.inUnit 1000)) solver thr n).1 = (solve_fields_nl env (psim src) E solver thr n).1.map (Spec.inUnitNl 1000) := by
  have hA : (psim src).A.det ≠ 0 := by
    have h := psim_bornMat_det_all src 0
    have hz : kerrMat (psim src) 0 = 0 := by
      have h1 := compute_nl_Anl (psim src) 0
      have h2 : ((psim src).compute_nl 0).eps_nl = 0 := by
        funext i j
        rw [compute_nl_eps_nl]
        simp
      have h3 : ((psim src).compute_nl 0).Anl = some (spdiag fun k => (((psim src).omega ^ 2 * EPSILON_0 * (psim src).L0 : ℝ) : ℂ) * flatten ((psim src).compute_nl 0).eps_nl k) := rfl
      rw [h1, h2] at h3
      rw [Option.some.inj h3]
      have : (fun k => (((psim src).omega ^ 2 * EPSILON_0 * (psim src).L0 : ℝ) : ℂ) * flatten (0 : Grid 2 2 ℂ) k) = 0 := by
        funext k
        show _ * (0 : ℂ) = 0
        rw [mul_zero]
      rw [this]
      simp [spdiag]
    rw [bornMat, hz, add_zero] at h
    exact h
  exact (C64_nonlinear env he 1000 (by norm_num) (psim src) _ (toUnit_same _ _) (psim_valid src) (toUnit_valid _ (by norm_num) _ (psim_valid src)) (by norm_num) (by norm_num)
    hA (psim_bornMat_det_all src) (psim_jac_det_all src) E solver thr n).1

/-! ## One-cell axes -/

theorem one_cell_A (omega L0 : ℝ) (xr yr : ℝ × ℝ) (eps : Grid 1 1 ℂ) (v : Vec (1 * 1) ℂ) :
    (construct_A omega xr yr eps (0, 0) .Ez L0).1 *ᵥ v = (2 / ((MU_0 * L0 : ℝ) : ℂ) + (omega : ℂ) ^ 2 * (((EPSILON_0 * L0 : ℝ) : ℂ) * eps 0 0)) • v := by
  have hS : spdiag (flatten (fun (_ : Fin 1) (_ : Fin 1) => (1 : ℂ) / 1)) = 1 := by
    rw [show (flatten fun (_ : Fin 1) (_ : Fin 1) => (1 : ℂ) / 1) = fun _ => 1 by funext k; simp [flatten]]
    exact Matrix.diagonal_one
  have hD : ∀ w d x y, createDws w d x y 1 1 = (1 : Mat (1 * 1) ℂ) := by
    intro w d x y
    cases w <;> simp [createDws]
  simp only [construct_A, mkDerivs, S_create, sfactor_zero, hS, hD, Matrix.mul_one, Matrix.add_mulVec, smul_mulVec, Matrix.one_mulVec, spdiag_mulVec]
  refine flat_ext fun i j => ?_
  obtain rfl : i = 0 := Subsingleton.elim _ _
  obtain rfl : j = 0 := Subsingleton.elim _ _
  simp only [Pi.add_apply, Pi.smul_apply, flatten_pair, smul_eq_mul]
  ring

/-- C64 fails on axes with one cell (where `createDws` returns the identity, see `C08_singleton_axis_fails`): a uniform medium of one cell, nonsingular in both units, whose field changes
with the unit. -/
theorem C64_one_cell_false (env : Env) (he : env.Exact) : ∃ s s' : Sim 1 1, Spec.SameDevice 2 s s' ∧ s.Valid ∧ s'.Valid ∧ s.A.det ≠ 0 ∧ s'.A.det ≠ 0 ∧
    (s'.solve_fields env false false).1 ≠ (s.solve_fields env false false).1.map (Spec.inUnit3 2) := by
  have hη := ETA_0_pos
  have hη0 : (ETA_0 : ℂ) ≠ 0 := by exact_mod_cast hη.ne'
  set c : ℂ := ((2 / ETA_0 ^ 2 + 1 : ℝ) : ℂ) with hc
  set c' : ℂ := ((1 / ETA_0 ^ 2 + 2 : ℝ) : ℂ) with hc'
  have c0 : c ≠ 0 := by rw [hc]; exact_mod_cast (by positivity : (0 : ℝ) < 2 / ETA_0 ^ 2 + 1).ne'
  have c0' : c' ≠ 0 := by rw [hc']; exact_mod_cast (by positivity : (0 : ℝ) < 1 / ETA_0 ^ 2 + 2).ne'
  let s : Sim 1 1 := fsim 0 (fun _ _ => 1) (fun _ _ => 1)
  have hA : ∀ v, s.A *ᵥ v = c • v := by
    intro v
    show (construct_A _ _ _ _ _ _ _).1 *ᵥ v = _
    rw [one_cell_A, mu0_norm, eps0_norm, hc]
    push_cast
    simp
  have hA' : ∀ v, (toUnit 2 s).A *ᵥ v = c' • v := by
    intro v
    show (construct_A _ _ _ _ (0, 0) .Ez (2 * s.L0)).1 *ᵥ v = _
    rw [one_cell_A]
    have e1 : MU_0 * (2 * s.L0) = 2 * ETA_0 ^ 2 := by
      have : MU_0 * (1 / EPSILON_0) = ETA_0 ^ 2 := mu0_norm
      show MU_0 * (2 * (1 / EPSILON_0)) = _
      linarith
    have e2 : EPSILON_0 * (2 * s.L0) = 2 := by
      show EPSILON_0 * (2 * (1 / EPSILON_0)) = 2
      have := EPSILON_0_pos.ne'
      field_simp
    have e3 : (s.omega : ℂ) = 1 := by simp [s, fsim]
    rw [e1, e2, e3, hc']
    congr 1
    show _ + _ * (_ * (1 : ℂ)) = _
    push_cast
    field_simp
  have inj : ∀ {A : Mat (1 * 1) ℂ} {z : ℂ}, z ≠ 0 → (∀ v, A *ᵥ v = z • v) → A.det ≠ 0 := fun hz h => det_ne_zero_of_inj fun v hv => by
    rw [h] at hv
    exact (smul_eq_zero.1 hv).resolve_left hz
  refine ⟨s, toUnit 2 s, toUnit_same 2 s, fsim_valid _ _ _, toUnit_valid 2 (by norm_num) s (fsim_valid _ _ _), inj c0 hA, inj c0' hA', ?_⟩
  have hX : solver_direct env s.A s.rhs = c⁻¹ • s.rhs := solver_direct_unique he (inj c0 hA) (by rw [hA, smul_smul, mul_inv_cancel₀ c0, one_smul])
  have hX' : solver_direct env (toUnit 2 s).A (toUnit 2 s).rhs = c'⁻¹ • (toUnit 2 s).rhs := solver_direct_unique he (inj c0' hA') (by rw [hA', smul_smul, mul_inv_cancel₀ c0', one_smul])
  intro h
  have h3 : unflatten (solver_direct env (toUnit 2 s).A (toUnit 2 s).rhs) = Spec.inUnit 2 (unflatten (solver_direct env s.A s.rhs)) := by
    have := congrArg (fun r => r.map fun t => t.2.2) h
    simp only [Sim.solve_fields, if_true, Except.map, Except.ok.injEq, in_plane_third, Spec.inUnit3] at this
    exact this
  rw [hX, hX', (toUnit_same 2 s).rhs] at h3
  have h4 := congrFun (congrFun h3 0) 0
  have hr : unflatten s.rhs 0 0 = Complex.I := by
    show (1 : ℂ) * Complex.I * ((1 : ℝ) : ℂ) = _
    simp
  have h5 : c'⁻¹ * (((2 : ℝ) : ℂ) ^ 2 * Complex.I) = ((2 : ℝ) : ℂ) * (c⁻¹ * Complex.I) := by
    rw [← hr]
    exact h4
  have h6 : (2 : ℂ) * c = c' := by
    field_simp at h5
    exact h5
  rw [hc, hc'] at h6
  have h7 : 2 * (2 / ETA_0 ^ 2 + 1) = 1 / ETA_0 ^ 2 + 2 := by exact_mod_cast h6
  have h8 : 3 / ETA_0 ^ 2 = 0 := by linear_combination h7
  have : 0 < 3 / ETA_0 ^ 2 := by positivity
  linarith

end Angler
