import Verif.Props.Accelerator
import Verif.Props.GradientHz
import Verif.Props.SimState
import Verif.Model.DesignRegion
import Verif.Model.OptInit

/-! # C110 (the start of an accelerator optimisation) -/

namespace Angler

open Matrix

variable {Nx Ny : ℕ}

/-! ## Specification -/

/-- A wave along `y`: from one cell to the next the phase advances by `z`. -/
def Spec.IsWave (z : ℂ) (f : Grid Nx Ny ℂ) : Prop := ∀ i j, f i j = z * f i (Spec.prev j)

/-! ## Waves along a periodic axis -/

/-- The same for flattened fields. -/
def VecWave (z : ℂ) (v : Vec (Nx * Ny) ℂ) : Prop := v = z • fun k => v ((relIdx (rollσ Nx Ny 0 1)).symm k)

theorem vecWave_iff (z : ℂ) (f : Grid Nx Ny ℂ) : VecWave z (flatten f) ↔ Spec.IsWave z f := by
  have e : (fun k => flatten f ((relIdx (rollσ Nx Ny 0 1)).symm k)) = flatten (Spec.roll 0 1 f) := (flatten_relabel (rollσ Nx Ny 0 1) f).symm
  unfold VecWave
  rw [e]
  constructor
  · intro h i j
    have := congrFun h (finProdFinEquiv (i, j))
    rw [Pi.smul_apply, flatten_pair, flatten_pair, smul_eq_mul] at this
    exact this
  · intro h
    refine flat_ext fun i j => ?_
    rw [Pi.smul_apply, flatten_pair, flatten_pair, smul_eq_mul]
    exact h i j

theorem VecWave.mulVec {z : ℂ} {v : Vec (Nx * Ny) ℂ} (h : VecWave z v) {M : Mat (Nx * Ny) ℂ} (hM : relMat (rollσ Nx Ny 0 1) M = M) : VecWave z (M *ᵥ v) := by
  unfold VecWave
  conv_lhs => rw [h, Matrix.mulVec_smul, ← hM, relMat_mulVec]

theorem VecWave.smul {z : ℂ} {v : Vec (Nx * Ny) ℂ} (h : VecWave z v) (c : ℂ) : VecWave z (c • v) := by
  unfold VecWave
  conv_lhs => rw [h]
  funext k
  simp only [Pi.smul_apply, smul_eq_mul]
  ring

theorem VecWave.solve {z : ℂ} {A : Mat (Nx * Ny) ℂ} {x b : Vec (Nx * Ny) ℂ} (hA : relMat (rollσ Nx Ny 0 1) A = A) (hdet : A.det ≠ 0) (hx : A *ᵥ x = b) (hb : VecWave z b) : VecWave z x := by
  refine Matrix.mulVec_injective_of_isUnit ((Matrix.isUnit_iff_isUnit_det A).2 (isUnit_iff_ne_zero.2 hdet)) ?_
  show A *ᵥ x = A *ᵥ (z • fun k => x ((relIdx (rollσ Nx Ny 0 1)).symm k))
  rw [Matrix.mulVec_smul]
  have e : A *ᵥ (fun k => x ((relIdx (rollσ Nx Ny 0 1)).symm k)) = fun k => (A *ᵥ x) ((relIdx (rollσ Nx Ny 0 1)).symm k) := by
    conv_lhs => rw [← hA]
    exact relMat_mulVec _ _ _
  rw [e, hx]
  exact hb

theorem relMat_transpose (σ : Fin Nx × Fin Ny ≃ Fin Nx × Fin Ny) (M : Mat (Nx * Ny) ℂ) : relMat σ Mᵀ = (relMat σ M)ᵀ := rfl

theorem isWave_pow {z : ℂ} {f : Grid Nx Ny ℂ} (h : Spec.IsWave z f) (hy : 0 < Ny) (i : Fin Nx) (j : Fin Ny) : f i j = f i ⟨0, hy⟩ * z ^ (j : ℕ) := by
  have key : ∀ (m : ℕ) (hm : m < Ny), f i ⟨m, hm⟩ = f i ⟨0, hy⟩ * z ^ m := by
    intro m
    induction m with
    | zero => intro hm; rw [pow_zero, mul_one]
    | succ m ih =>
      intro hm
      have e : Spec.prev (⟨m + 1, hm⟩ : Fin Ny) = ⟨m, by omega⟩ := by
        have : Spec.next (⟨m, by omega⟩ : Fin Ny) = ⟨m + 1, hm⟩ := Fin.ext (by show (m + 1) % Ny = m + 1; exact Nat.mod_eq_of_lt hm)
        rw [← this, prev_next]
      rw [h i ⟨m + 1, hm⟩, e, ih (by omega), pow_succ]
      ring
  exact key j.val j.isLt

/-- The system of an unpatterned device does not change under motion along the beam. -/
theorem uniform_system (s : Sim Nx Ny) (hv : s.Valid) (eps : Fin Nx → ℂ) (heps : ∀ i j, s.eps_r i j = eps i) (hP : s.NPML.2 = 0) :
    relMat (rollσ Nx Ny 0 1) s.A = s.A ∧ relMat (rollσ Nx Ny 0 1) s.derivs.Dxf = s.derivs.Dxf ∧ relMat (rollσ Nx Ny 0 1) s.derivs.Dyf = s.derivs.Dyf := by
  let s0 : Sim Nx Ny := { s with fields := fun _ => none, fields_nl := fun _ => none, nonlinearity := [], src := fun _ _ => 0 }
  have hv0 : s0.Valid := { hv with }
  have hM : Spec.Moved 0 1 s0 s0 :=
    { L0 := rfl, dl := rfl, omega := rfl, NPML := rfl, pol := rfl
      eps_r := by funext i j; show s.eps_r i j = s.eps_r _ _; rw [heps, heps]; rfl
      src := rfl, nonlinearity := rfl, fields := rfl, fields_nl := rfl }
  have hf : Spec.Free 0 1 s.NPML := ⟨Or.inl rfl, Or.inr hP⟩
  obtain ⟨-, -, h3, h4⟩ := mkDerivs_roll (Nx := Nx) (Ny := Ny) 0 1 s.omega s.L0 s.xrange s.yrange s.NPML hf
  rw [← hv.derivs_eq] at h3 h4
  exact ⟨(hM.system hv0 hv0 hf).2.symm, h3, h4⟩

theorem relMat_uniform (f : Fin Nx → ℂ) (v : Vec (Nx * Ny) ℂ) (hf : ∀ i j, unflatten v i j = f i) : relMat (rollσ Nx Ny 0 1) (spdiag v) = spdiag v := by
  rw [← flatten_unflatten v, relMat_spdiag_flatten, relabel_roll]
  congr 2
  funext i j
  show unflatten v _ _ = unflatten v i j
  rw [hf, hf]
  rfl

/-! ## The objective -/

theorem accelJ_eq (hx : 0 < Nx) (hy : 0 < Ny) (dl beta lambda0 E0 : ℝ) (hb : beta ≠ 0) (hl : lambda0 ≠ 0) (hE : E0 ≠ 0) :
    accelJ Nx Ny dl beta lambda0 E0 = .ok (linearJ fun i j => (if i = Spec.midRow Nx hx then Complex.exp (((2 * Real.pi * dl / (beta * lambda0) * (j : ℕ) : ℝ) : ℂ) * Complex.I) / Ny else 0) / E0) := by
  rw [accelJ, accelEta_ok hx hy dl beta lambda0 hb hl]
  simp only [Bind.bind, Except.bind, if_neg hE]
  refine congrArg Except.ok ?_
  rw [linearJ]
  congr 1
  funext x
  rw [Finset.sum_div]
  refine Finset.sum_congr rfl fun i _ => ?_
  rw [Finset.sum_div]
  refine Finset.sum_congr rfl fun j _ => ?_
  rw [← Complex.div_ofReal_re]
  refine congrArg Complex.re ?_
  ring

/-- The phase of the electron from cell to cell. -/
noncomputable def Spec.phase (Ny : ℕ) : ℂ := Complex.exp (2 * Real.pi * Complex.I / Ny)

theorem phase_pow (hy : 0 < Ny) (j : ℕ) : Complex.exp (((2 * Real.pi / Ny * j : ℝ) : ℂ) * Complex.I) = Spec.phase Ny ^ j := by
  have : (Ny : ℂ) ≠ 0 := by exact_mod_cast hy.ne'
  rw [Spec.phase, ← Complex.exp_nat_mul]
  refine congrArg Complex.exp ?_
  push_cast
  field_simp

theorem phase_one (hy : 0 < Ny) : Spec.phase Ny ^ Ny = 1 := by
  have : (Ny : ℂ) ≠ 0 := by exact_mod_cast hy.ne'
  rw [Spec.phase, ← Complex.exp_nat_mul, mul_div_cancel₀ _ this, Complex.exp_two_pi_mul_I]

theorem wave_row (hy : 0 < Ny) (k : Fin Nx) (c : ℂ) : Spec.IsWave (Spec.phase Ny) fun (i : Fin Nx) (j : Fin Ny) => if i = k then Spec.phase Ny ^ (j : ℕ) * c else 0 := by
  intro i j
  beta_reduce
  by_cases h : i = k
  · rw [if_pos h, if_pos h, ← mul_assoc]
    congr 1
    rcases Nat.eq_zero_or_pos j.val with h0 | h0
    · have e : ((Spec.prev j : Fin Ny) : ℕ) = Ny - 1 := by
        have h1 : Spec.next (⟨Ny - 1, by omega⟩ : Fin Ny) = j := Fin.ext (by
          show (Ny - 1 + 1) % Ny = j.val
          rw [Nat.sub_add_cancel hy, Nat.mod_self, h0])
        rw [← h1, prev_next]
      rw [e, h0, pow_zero, ← pow_succ', Nat.sub_add_cancel hy, phase_one hy]
    · have e : ((Spec.prev j : Fin Ny) : ℕ) = j.val - 1 := by
        have h1 : Spec.next (⟨j.val - 1, by omega⟩ : Fin Ny) = j := Fin.ext (by
          show (j.val - 1 + 1) % Ny = j.val
          rw [Nat.sub_add_cancel h0, Nat.mod_eq_of_lt j.isLt])
        exact congrArg Fin.val ((congrArg Spec.prev h1).symm.trans (prev_next _))
      rw [e, ← pow_succ', Nat.sub_add_cancel h0]
  · rw [if_neg h, if_neg h, mul_zero]

/-! ## The gradient -/

/-- `compute_dJ` for an objective of `Ey` alone. -/
theorem compute_dJ_Ey (env : Env) (o : Opt Nx Ny) (hpol : o.simulation.pol = .Hz) (q : Grid Nx Ny ℂ) (a : ObjArg) (ha : ObjArg.init "Ey" false = .ok a) (hobj : Objective.init (linearJ q) [a] = .ok o.objective)
    (hcur : o.fields_current = false) (rho : Grid Nx Ny ℝ) (hrho : o.simulation.rho = some (some rho)) :
    (Opt.compute_dJ env o).1 = .ok (Opt.tail_Hz env o rho (unflatten (solver_direct env o.simulation.A o.simulation.rhs))
      (unflatten ((-1 / Complex.I / (o.simulation.omega : ℂ)) • ((spdiag (fun k => 1 / (Sim.eps_xy o.simulation.L0 false o.simulation.eps_r).1 k) * o.simulation.derivs.Dxfᵀ) *ᵥ flatten fun i j => -q i j)))) := by
  obtain rfl : a = ⟨.Ey, false, .linear_Ey⟩ := (Except.ok.inj ha).symm
  have hmk : o.objective = Objective.mk' (linearJ q) [⟨.Ey, false, .linear_Ey⟩] := (Except.ok.inj hobj).symm
  obtain ⟨t, ht, hst⟩ := solve_fields_Hz env o.simulation hpol
  have hsol : Opt.solveArgFields env o none = (.ok (), { { o with simulation := { o.simulation with fields := Sim.store .Hz o.simulation.fields t } } with field_arg_list := some [t.2.1], fields_current := true }, none) := by
    unfold Opt.solveArgFields
    rw [if_pos (Or.inl hcur)]
    have hl : o.objective.isLinear = true := by rw [hmk]; rfl
    have hall : Opt.solveAll env o.objective.isLinear (o.target none) = (.ok (), { o.simulation with fields := Sim.store .Hz o.simulation.fields t }) := by
      rw [hl]
      show Opt.solveAll env true o.simulation = _
      simp only [Opt.solveAll, ht, if_true]
    have harg : o.objective.arg_list = [⟨.Ey, false, .linear_Ey⟩] := by rw [hmk]; rfl
    rw [hall, harg]
    rfl
  have hF : Sim.store .Hz o.simulation.fields t o.simulation.pol.comp = some (unflatten (solver_direct env o.simulation.A o.simulation.rhs)) := by rw [hpol]; exact hst
  have hg : ∀ o1 : Opt Nx Ny, o1.simulation.rho = some (some rho) → ∀ H, Opt.gradFn env o1 .linear_Ey q H = (.ok (Opt.tail_Hz env o1 rho H
      (unflatten ((-1 / Complex.I / (o1.simulation.omega : ℂ)) • ((spdiag (fun k => 1 / (Sim.eps_xy o1.simulation.L0 false o1.simulation.eps_r).1 k) * o1.simulation.derivs.Dxfᵀ) *ᵥ flatten fun i j => -q i j)))), o1.simulation) := by
    intro o1 h1 H
    simp only [Opt.gradFn, Opt.grad_linear_Ey, Opt.getRho, h1]
    rfl
  have key : ∀ (ob : Objective Nx Ny) (o1 : Opt Nx Ny) (H : Grid Nx Ny ℂ), ob = Objective.mk' (linearJ q) [⟨.Ey, false, .linear_Ey⟩] → o1.simulation.rho = some (some rho) →
      o1.simulation.fields o1.simulation.pol.comp = some H →
      (Opt.dJLoop env (ob.grad_fn_list.zip (ob.dJ_list.zip ob.arg_list)) (fun d => ob.J.callGrad d [t.2.1]) o1 none fun _ _ => 0).1 = .ok (Opt.tail_Hz env o1 rho H
        (unflatten ((-1 / Complex.I / (o1.simulation.omega : ℂ)) • ((spdiag (fun k => 1 / (Sim.eps_xy o1.simulation.L0 false o1.simulation.eps_r).1 k) * o1.simulation.derivs.Dxfᵀ) *ᵥ flatten fun i j => -q i j)))) := by
    rintro ob o1 H rfl h1 h2
    show (Opt.dJLoop env [(GradFn.linear_Ey, (0 : Fin 1), ⟨.Ey, false, .linear_Ey⟩)] (fun d => (linearJ q).callGrad d [t.2.1]) o1 none fun _ _ => 0).1 = _
    have hd : (linearJ q).callGrad (0 : Fin 1) [t.2.1] = .ok q := rfl
    simp only [Opt.dJLoop, Opt.target, Option.getD_none, Bool.false_eq_true, if_false, h2, hd, hg o1 h1, zero_add]
  unfold Opt.compute_dJ
  rw [hsol]
  exact key _ _ _ hmk hrho hF

/-- **C110, the first gradient is a grating.** For a device that does not depend on `y`, periodic along `y` with a period of `βλ₀ = Ny·dl`, without density filter, the gradient of the objective of
`Accelerator.ipynb` is in each row the real part of one wave that travels with the electrons; it has mean zero, so a change of the amount of material in a row does not help to first order. -/
theorem C110_gradient (env : Env) (he : env.Exact) (o : Opt Nx Ny) (hv : o.simulation.Valid) (hpol : o.simulation.pol = .Hz) (hx : 0 < Nx) (hy : 1 < Ny) (eps src : Fin Nx → ℂ)
    (hu : Spec.Uniform1 o.simulation eps src) (hdet : o.simulation.A.det ≠ 0) (hW : o.W = 1) (r D : Fin Nx → ℝ) (hrho : o.simulation.rho = some (some fun i _ => r i)) (hD : ∀ i j, o.design_region i j = D i)
    (dl beta lambda0 E0 : ℝ) (hd : dl ≠ 0) (hper : beta * lambda0 = Ny * dl) (hE : E0 ≠ 0)
    (F : ObjFn Nx Ny) (hF : accelJ Nx Ny dl beta lambda0 E0 = .ok F) (a : ObjArg) (ha : ObjArg.init "Ey" false = .ok a) (hobj : Objective.init F [a] = .ok o.objective) (hcur : o.fields_current = false) :
    ∃ (g : Grid Nx Ny ℝ) (c : Fin Nx → ℂ), (Opt.compute_dJ env o).1 = .ok g ∧ (∀ i j, g i j = (c i * Complex.exp ((2 * Real.pi * (j : ℕ) / Ny : ℝ) * Complex.I)).re) ∧ ∀ i, ∑ j, g i j = 0 := by
  have hy0 : 0 < Ny := by omega
  have hNy : (Ny : ℝ) ≠ 0 := by exact_mod_cast hy0.ne'
  have hbl : beta * lambda0 ≠ 0 := by rw [hper]; exact mul_ne_zero hNy hd
  have hb : beta ≠ 0 := left_ne_zero_of_mul hbl
  have hl : lambda0 ≠ 0 := right_ne_zero_of_mul hbl
  have hph : ∀ j : ℕ, Complex.exp ((2 * Real.pi * (j : ℕ) / Ny : ℝ) * Complex.I) = Spec.phase Ny ^ j := by
    intro j
    rw [← phase_pow hy0 j]
    congr 3
    ring
  have hq : (fun (i : Fin Nx) (j : Fin Ny) => (if i = Spec.midRow Nx hx then Complex.exp (((2 * Real.pi * dl / (beta * lambda0) * (j : ℕ) : ℝ) : ℂ) * Complex.I) / Ny else 0) / (E0 : ℂ)) =
      fun (i : Fin Nx) (j : Fin Ny) => if i = Spec.midRow Nx hx then Spec.phase Ny ^ (j : ℕ) * (1 / Ny / E0) else 0 := by
    funext i j
    rw [← phase_pow hy0, hper, show 2 * Real.pi * dl / (Ny * dl) * ((j : ℕ) : ℝ) = 2 * Real.pi / Ny * (j : ℕ) by field_simp]
    split_ifs <;> ring
  rw [accelJ_eq hx hy0 dl beta lambda0 E0 hb hl hE, hq] at hF
  obtain rfl := Except.ok.inj hF
  rw [compute_dJ_Ey env o hpol _ a ha hobj hcur _ hrho]
  obtain ⟨hA, hDx, hDy⟩ := uniform_system o.simulation hv eps hu.eps_r hu.NPML
  set s := o.simulation with hs
  set X := solver_direct env s.A s.rhs with hX
  -- the magnetic field
  have hXw : VecWave 1 X := by
    refine VecWave.solve hA hdet (solver_direct_spec he (Or.inl hdet)) ?_
    rw [← flatten_unflatten s.rhs, vecWave_iff]
    intro i j
    simp only [unflatten, Sim.rhs, flatten_pair, hu.src, one_mul]
  -- the adjoint source and field
  set b : Grid Nx Ny ℂ := unflatten ((-1 / Complex.I / (s.omega : ℂ)) • ((spdiag (fun k => 1 / (Sim.eps_xy s.L0 false s.eps_r).1 k) * s.derivs.Dxfᵀ) *ᵥ
    flatten fun (i : Fin Nx) (j : Fin Ny) => -(if i = Spec.midRow Nx hx then Spec.phase Ny ^ (j : ℕ) * (1 / Ny / E0) else 0))) with hb'
  have hbw : VecWave (Spec.phase Ny) (flatten b) := by
    rw [hb', flatten_unflatten, ← Matrix.mulVec_mulVec]
    refine VecWave.smul (VecWave.mulVec (VecWave.mulVec ?_ ?_) ?_) _
    · rw [vecWave_iff]
      intro i j
      have := wave_row (Nx := Nx) hy0 (Spec.midRow Nx hx) (1 / (Ny : ℂ) / E0) i j
      beta_reduce at this ⊢
      rw [this, mul_neg]
    · rw [relMat_transpose, hDx]
    · refine relMat_uniform (fun i => 1 / (((EPSILON_0 * s.L0 : ℝ) : ℂ) * eps i)) _ fun i j => ?_
      simp only [unflatten, Sim.eps_xy, Bool.false_eq_true, if_false, flatten_pair, hu.eps_r]
  have haw : VecWave (Spec.phase Ny) (solver_direct env s.Aᵀ (flatten b)) := by
    have hdT : s.Aᵀ.det ≠ 0 := by rw [Matrix.det_transpose]; exact hdet
    exact VecWave.solve (by rw [relMat_transpose, hA]) hdT (solver_direct_spec he (Or.inl hdT)) hbw
  set ad := solver_direct env s.Aᵀ (flatten b) with had
  have w : ∀ {z : ℂ} {v : Vec (Nx * Ny) ℂ}, VecWave z v → ∀ i j, v (finProdFinEquiv (i, j)) = v (finProdFinEquiv (i, ⟨0, hy0⟩)) * z ^ (j : ℕ) := by
    intro z v h i j
    rw [← flatten_unflatten v, vecWave_iff] at h
    exact isWave_pow h hy0 i j
  have u1 := w (haw.mulVec (M := s.derivs.Dxfᵀ) (by rw [relMat_transpose, hDx]))
  have u2 := w (haw.mulVec (M := s.derivs.Dyfᵀ) (by rw [relMat_transpose, hDy]))
  have v1 := w (hXw.mulVec hDx)
  have v2 := w (hXw.mulVec hDy)
  let K : Fin Nx → ℂ := fun i => -(((EPSILON_0 * s.L0 : ℝ) : ℂ) * (((o.eps_m - 1) * drhob_drhot (r i) o.eta o.beta * (1 * D i) : ℝ) : ℂ)) / (((EPSILON_0 * s.L0 : ℝ) : ℂ) * eps i) ^ 2
  let c : Fin Nx → ℂ := fun i => (s.derivs.Dxfᵀ *ᵥ ad) (finProdFinEquiv (i, ⟨0, hy0⟩)) * K i * (s.derivs.Dxf *ᵥ X) (finProdFinEquiv (i, ⟨0, hy0⟩)) +
    (s.derivs.Dyfᵀ *ᵥ ad) (finProdFinEquiv (i, ⟨0, hy0⟩)) * K i * (s.derivs.Dyf *ᵥ X) (finProdFinEquiv (i, ⟨0, hy0⟩))
  have hg : ∀ i j, Opt.tail_Hz env o (fun i _ => r i) (unflatten X) b i j = (c i * Complex.exp ((2 * Real.pi * (j : ℕ) / Ny : ℝ) * Complex.I)).re := by
    intro i j
    rw [tail_Hz_apply env o _ _ _ hv.omega_pos.ne' i j, ← hs, hW]
    refine congrArg Complex.re ?_
    rw [Finset.sum_eq_single (finProdFinEquiv (i, j))]
    · simp only [flatten_unflatten, flatten_pair, Matrix.one_apply_eq, rho2rhot, Matrix.one_mulVec, unflatten_flatten, hD, hu.eps_r, ← had]
      rw [u1, u2, v1, v2, one_pow, hph]
      simp only [c, K, mul_one]
      ring
    · intro k _ hk
      obtain ⟨⟨i', j'⟩, rfl⟩ := finProdFinEquiv.surjective k
      simp only [flatten_pair]
      rw [Matrix.one_apply_ne (Ne.symm hk)]
      simp
    · exact fun h => absurd (Finset.mem_univ _) h
  refine ⟨_, c, rfl, hg, fun i => ?_⟩
  simp only [hg]
  rw [← Complex.re_sum, ← Finset.mul_sum]
  have := geom_zero (Ny := Ny) (2 * Real.pi / Ny) hy (by field_simp)
  rw [Finset.sum_congr rfl fun j _ => show Complex.exp ((2 * Real.pi * ((j : Fin Ny) : ℕ) / Ny : ℝ) * Complex.I) = Complex.exp (((2 * Real.pi / Ny * (j : ℕ) : ℝ) : ℂ) * Complex.I) by congr 3; ring, this,
    mul_zero, Complex.zero_re]

/-! ## The layout -/

/-- **C110, layout.** In a structure made by `accelerator` (a gap of at least four cells, space of at least one cell) nothing depends on `y`; the row in which the electrons run and the row in which the
notebook puts the source are vacuum outside the design region; the source lies between the absorbing layer and the middle. -/
theorem C110_layout (beta gap lambda0 L spc dl eps_start : ℝ) (NPML : ℤ × ℤ) (S : Structure) (hS : accelerator beta gap lambda0 L spc dl NPML eps_start = .ok S) (hd : 0 < dl)
    (hg : 4 * dl ≤ gap) (hL : 0 ≤ L) (hs : dl ≤ spc) (hP : 0 ≤ NPML.1) (amp : ℂ) :
    (S.Ny : ℤ) = pyInt (beta * lambda0 / dl) ∧ (∀ i j j', S.eps_r i j = S.eps_r i j' ∧ S.design_region i j = S.design_region i j') ∧
      (∀ (i : Fin S.Nx) (j : Fin S.Ny), i.val = S.Nx / 2 → S.design_region i j = 0 ∧ S.eps_r i j = 1) ∧
      ∃ r : Fin S.Nx, NPML.1 < (r.val : ℤ) ∧ (r.val : ℤ) < S.Nx / 2 ∧ (r.val : ℤ) < S.Nx - NPML.1 ∧ lineSource S.Nx S.Ny NPML spc dl amp = .ok (fun i _ => if i = r then amp else 0) ∧
        ∀ j, S.design_region r j = 0 ∧ S.eps_r r j = 1 := by
  unfold accelerator at hS
  rw [if_neg hd.ne'] at hS
  obtain ⟨hNx, hNy, hent⟩ := build_ok hS
  have hspc : 0 ≤ spc := hd.le.trans hs
  have hgd : 0 < gap := by linarith
  obtain ⟨T, hTi, hT1, hT2⟩ := pyInt_spec ((4 * spc + 2 * L + gap) / dl) (by positivity)
  obtain ⟨m, hmi, hm1, hm2⟩ := pyInt_spec (spc / dl) (by positivity)
  obtain ⟨P, hPn⟩ : ∃ P : ℕ, NPML.1 = P := ⟨NPML.1.toNat, by omega⟩
  have hNx' : S.Nx = 2 * P + T := by
    have : (S.Nx : ℤ) = 2 * P + T := by rw [hNx, hTi, hPn]
    exact_mod_cast this
  rw [le_div_iff₀ hd] at hT1 hm1
  rw [div_lt_iff₀ hd] at hT2 hm2
  have hm0 : 1 ≤ m := by
    by_contra hc
    have : m = 0 := by omega
    rw [this] at hm2
    push_cast at hm2
    linarith
  have hTm : 4 * m + 4 ≤ T := by
    have h1 : (4 * (m : ℝ) + 4) * dl < (T + 1) * dl := by linarith
    have h2 : 4 * (m : ℝ) + 4 < T + 1 := lt_of_mul_lt_mul_right h1 hd.le
    have h3 : 4 * m + 4 < T + 1 := by exact_mod_cast h2
    omega
  have hmem : ∀ (i : Fin S.Nx) (j : Fin S.Ny), (∃ r ∈ [(fun x _ => gap / 2 < |x| ∧ |x| < gap / 2 + L : Region)], r (gridCoord S.Nx dl i) (gridCoord S.Ny dl j)) ↔
      gap / 2 < |gridCoord S.Nx dl i| ∧ |gridCoord S.Nx dl i| < gap / 2 + L := by
    intro i j
    simp
  have hrow : ∀ (i : Fin S.Nx) (j : Fin S.Ny), ¬ (gap / 2 < |gridCoord S.Nx dl i| ∧ |gridCoord S.Nx dl i| < gap / 2 + L) → S.design_region i j = 0 ∧ S.eps_r i j = 1 := by
    intro i j h
    exact ⟨(hent i j).2.2.2 (fun h' => h ((hmem i j).1 h')), (hent i j).2.1 (fun h' => h ((hmem i j).1 h'))⟩
  refine ⟨hNy, fun i j j' => ?_, fun i j hi => hrow i j fun h => ?_, ⟨P + m, by omega⟩, ?_, ?_, ?_, ?_, fun j => hrow _ j fun h => ?_⟩
  · by_cases h : gap / 2 < |gridCoord S.Nx dl i| ∧ |gridCoord S.Nx dl i| < gap / 2 + L
    · rw [(hent i j).1 ((hmem i j).2 h), (hent i j').1 ((hmem i j').2 h), (hent i j).2.2.1 ((hmem i j).2 h), (hent i j').2.2.1 ((hmem i j').2 h)]
      exact ⟨rfl, rfl⟩
    · obtain ⟨a1, a2⟩ := hrow i j h
      obtain ⟨b1, b2⟩ := hrow i j' h
      rw [a1, a2, b1, b2]
      exact ⟨rfl, rfl⟩
  · have hnear := coord_near S.Nx (by omega) dl 0 hd 0 (by simp) (by simpa using hd) (by omega) i.val (by left; rw [hi]; simp)
    rw [sub_zero, abs_abs] at hnear
    linarith [h.1]
  · show NPML.1 < ((P + m : ℕ) : ℤ); omega
  · show ((P + m : ℕ) : ℤ) < (S.Nx : ℤ) / 2; omega
  · show ((P + m : ℕ) : ℤ) < S.Nx - NPML.1; omega
  · rw [lineSource, if_neg hd.ne', setRow, hmi, hPn, show (P : ℤ) + m = ((P + m : ℕ) : ℤ) by push_cast; rfl, pyIndex_nat S.Nx (P + m) (by omega)]
    rfl
  · have hN2 : 2 ≤ S.Nx := by omega
    have hNr : (2 : ℝ) ≤ S.Nx := by exact_mod_cast hN2
    have hk : 1 ≤ (S.Nx : ℝ) / ((S.Nx : ℝ) - 1) := by rw [one_le_div (by linarith)]; linarith
    have hNc : (S.Nx : ℝ) = 2 * P + T := by exact_mod_cast hNx'
    have e : ((P + m : ℕ) : ℝ) - ((S.Nx : ℝ) - 1) / 2 = -((T - 1) / 2 - m) := by rw [hNc]; push_cast; ring
    have hT4 : (4 * m + 4 : ℝ) ≤ T := by exact_mod_cast hTm
    have hpos : 0 ≤ dl * (((T : ℝ) - 1) / 2 - m) := mul_nonneg hd.le (by linarith [(Nat.cast_nonneg m : (0 : ℝ) ≤ m)])
    have h2 := h.2
    show False
    have h3 : |gridCoord S.Nx dl (P + m)| = (S.Nx : ℝ) / ((S.Nx : ℝ) - 1) * (dl * (((T : ℝ) - 1) / 2 - m)) := by
      rw [gridCoord_eq S.Nx hN2, e, show (S.Nx : ℝ) / ((S.Nx : ℝ) - 1) * dl * -(((T : ℝ) - 1) / 2 - m) = -((S.Nx : ℝ) / ((S.Nx : ℝ) - 1) * (dl * (((T : ℝ) - 1) / 2 - m))) by ring, abs_neg,
        abs_of_nonneg (mul_nonneg (by linarith) hpos)]
    have h4 : |gridCoord S.Nx dl (P + m)| < gap / 2 + L := h2
    have h5 := mul_le_mul_of_nonneg_right hk hpos
    rw [h3] at h4
    linarith

/-! ## The first evaluation -/

/-- `compute_J` for an objective of `Ey` alone. -/
theorem compute_J_Ey (env : Env) (o : Opt Nx Ny) (hpol : o.simulation.pol = .Hz) (F : ObjFn Nx Ny) (a : ObjArg) (ha : ObjArg.init "Ey" false = .ok a) (hobj : Objective.init F [a] = .ok o.objective)
    (hcur : o.fields_current = false) (t : Triple Nx Ny) (ht : (o.simulation.solve_fields env).1 = .ok t) : (Opt.compute_J env o).1 = F.call [t.2.1] := by
  obtain rfl : a = ⟨.Ey, false, .linear_Ey⟩ := (Except.ok.inj ha).symm
  have hmk : o.objective = Objective.mk' F [⟨.Ey, false, .linear_Ey⟩] := (objective_init_ok hobj).2
  obtain ⟨t', ht', -⟩ := solve_fields_Hz env o.simulation hpol
  rw [ht'] at ht
  obtain rfl := Except.ok.inj ht
  have hsol : Opt.solveArgFields env o none = (.ok (), { { o with simulation := { o.simulation with fields := Sim.store .Hz o.simulation.fields t' } } with field_arg_list := some [t'.2.1], fields_current := true }, none) := by
    unfold Opt.solveArgFields
    rw [if_pos (Or.inl hcur)]
    have hl : o.objective.isLinear = true := by rw [hmk]; rfl
    have hall : Opt.solveAll env o.objective.isLinear (o.target none) = (.ok (), { o.simulation with fields := Sim.store .Hz o.simulation.fields t' }) := by
      rw [hl]
      show Opt.solveAll env true o.simulation = _
      simp only [Opt.solveAll, ht', if_true]
    have harg : o.objective.arg_list = [⟨.Ey, false, .linear_Ey⟩] := by rw [hmk]; rfl
    rw [hall, harg]
    rfl
  unfold Opt.compute_J
  rw [hsol, hmk]
  rfl

theorem init_Hz {omega dl L0 a b : ℝ} {eps : Grid Nx Ny ℂ} {s : Sim Nx Ny} (h : Sim.init omega eps dl (.list [a, b]) "Hz" L0 = .ok s) : s.pol = .Hz ∧ s.NPML = (⌊a⌋₊, ⌊b⌋₊) := by
  unfold Sim.init at h
  rcases hc : Sim.check_inputs omega L0 (.list [a, b]) "Hz" with e | ⟨np, p⟩
  · rw [hc] at h; cases h
  · rw [hc] at h
    have h' := Except.ok.inj h
    have hc' : ((a, b), Pol.Hz) = (np, p) := by
      unfold Sim.check_inputs at hc
      by_cases h1 : 0 < L0
      swap
      · rw [if_pos h1] at hc; cases hc
      by_cases h2 : 0 < omega
      swap
      · rw [if_neg (not_not.2 h1), if_pos h2] at hc; cases hc
      by_cases h3 : 0 ≤ a ∧ 0 ≤ b
      swap
      · rw [if_neg (not_not.2 h1), if_neg (not_not.2 h2)] at hc
        simp only [h3, not_false_eq_true, if_true] at hc
        cases hc
      rw [if_neg (not_not.2 h1), if_neg (not_not.2 h2)] at hc
      simp only [h3, and_self, not_true_eq_false, if_false, String.reduceEq, if_true] at hc
      exact Except.ok.inj hc
    obtain ⟨rfl, rfl⟩ := Prod.mk.inj hc'
    rw [← h']
    exact ⟨rfl, rfl⟩

theorem init_numbers {omega dl L0 : ℝ} {eps : Grid Nx Ny ℂ} {NPML : Sim.NPMLArg} {pol : String} {s : Sim Nx Ny} (h : Sim.init omega eps dl NPML pol L0 = .ok s) : s.L0 = L0 ∧ s.omega = omega ∧ s.dl = dl := by
  unfold Sim.init at h
  rcases hc : Sim.check_inputs omega L0 NPML pol with e | ⟨np, p⟩
  · rw [hc] at h; cases h
  · rw [hc] at h
    rw [← Except.ok.inj h]
    exact ⟨rfl, rfl, rfl⟩

/-- **C110, the first evaluation.** `Accelerator.ipynb` from the structure to the first gradient: structure, simulation, source, `init_design_region(style='halfway')`, objective, optimisation.  If `βλ₀` is a
whole number of cells the first value of the objective is zero and the first gradient is, row by row, a wave travelling with the electrons. -/
theorem C110_start (env : Env) (he : env.Exact) (beta gap lambda0 L spc dl eps_m omega L0 E0 eta bet : ℝ) (P : ℕ) (amp : ℂ) (S : Structure) (hS : accelerator beta gap lambda0 L spc dl (P, 0) eps_m = .ok S)
    (hd : 0 < dl) (hg : 4 * dl ≤ gap) (hL : 0 ≤ L) (hs : dl ≤ spc) (hy : 1 < S.Ny) (hper : beta * lambda0 = S.Ny * dl) (hE : E0 ≠ 0)
    (s0 : Sim S.Nx S.Ny) (hs0 : Sim.init omega (fun i j => ((S.eps_r i j : ℝ) : ℂ)) dl (.list [P, 0]) "Hz" L0 = .ok s0) (src : Grid S.Nx S.Ny ℂ) (hsrc : lineSource S.Nx S.Ny (P, 0) spc dl amp = .ok src)
    (draw : Grid S.Nx S.Ny ℝ) (hdet : ({ s0 with src := src }.init_design_region S.design_region eps_m .halfway draw).A.det ≠ 0)
    (F : ObjFn S.Nx S.Ny) (hF : accelJ S.Nx S.Ny dl beta lambda0 E0 = .ok F) (a : ObjArg) (ha : ObjArg.init "Ey" false = .ok a) (ob : Objective S.Nx S.Ny) (hob : Objective.init F [a] = .ok ob)
    (o : Opt S.Nx S.Ny) (ho : Opt.init ob ({ s0 with src := src }.init_design_region S.design_region eps_m .halfway draw) S.design_region eps_m none eta bet = .ok o) :
    (Opt.compute_J env o).1 = .ok 0 ∧
      ∃ (g : Grid S.Nx S.Ny ℝ) (c : Fin S.Nx → ℂ), (Opt.compute_dJ env o).1 = .ok g ∧ (∀ i j, g i j = (c i * Complex.exp ((2 * Real.pi * (j : ℕ) / S.Ny : ℝ) * Complex.I)).re) ∧ ∀ i, ∑ j, g i j = 0 := by
  obtain ⟨-, huni, -, r, -, -, -, hr, -⟩ := C110_layout beta gap lambda0 L spc dl eps_m (P, 0) S hS hd hg hL hs (Int.natCast_nonneg P) amp
  rw [hr] at hsrc
  obtain rfl := Except.ok.inj hsrc
  obtain ⟨hv0, -, -, heps0, -⟩ := init_ok hs0
  have hpn : s0.pol = .Hz ∧ s0.NPML.2 = 0 := by
    obtain ⟨h1, h2⟩ := init_Hz hs0
    rw [h2]
    exact ⟨h1, Nat.floor_zero⟩
  have hx : 0 < S.Nx := lt_of_le_of_lt (Nat.zero_le _) r.isLt
  have hj0 : 0 < S.Ny := by omega
  set s := ({ s0 with src := fun i _ => if i = r then amp else 0 } : Sim S.Nx S.Ny).init_design_region S.design_region eps_m .halfway draw with hsd
  have hv : s.Valid := ⟨hv0.L0_pos, hv0.omega_pos, hv0.xr, hv0.yr, rfl, construct_A_derivs _ _ _ _ _ _ _ _⟩
  let j0 : Fin S.Ny := ⟨0, hj0⟩
  have hu : Spec.Uniform1 s (fun i => s.eps_r i j0) fun i => if i = r then amp else 0 := by
    refine ⟨fun i j => ?_, fun i j => rfl, hpn.2⟩
    show (if S.design_region i j = 1 then _ else s0.eps_r i j) = (if S.design_region i j0 = 1 then _ else s0.eps_r i j0)
    rw [heps0]
    beta_reduce
    rw [(huni i j j0).2, (huni i j j0).1]
  have hrho : s.rho = some (some fun i _ => eps2rho (s.eps_r i j0).re eps_m) := by
    show some (some fun i j => eps2rho (s.eps_r i j).re eps_m) = _
    refine congrArg some (congrArg some (funext fun i => funext fun j => ?_))
    rw [hu.eps_r]
  have hsp : s.pol = .Hz := hpn.1
  have hoe : o = { objective := ob, simulation := s, design_region := S.design_region, W := 1, eps_m := eps_m, eta := eta, beta := bet, max_ind_shift := none, src_amplitudes := [], objfn_list := [], fields_current := false, field_arg_list := none } := (Except.ok.inj ho).symm
  subst hoe
  have hNy : (S.Ny : ℝ) ≠ 0 := by exact_mod_cast hj0.ne'
  have hbl : beta * lambda0 ≠ 0 := by rw [hper]; exact mul_ne_zero hNy hd.ne'
  refine ⟨?_, C110_gradient env he _ hv hsp hx hy _ _ hu hdet rfl _ (fun i => S.design_region i j0) hrho (fun i j => (huni i j j0).2) dl beta lambda0 E0 hd.ne' hper hE F hF a ha hob rfl⟩
  obtain ⟨t, ht⟩ : ∃ t, (s.solve_fields env).1 = .ok t := ⟨_, rfl⟩
  rw [compute_J_Ey env _ hsp F a ha hob rfl t ht]
  obtain ⟨F', hF', -, -, hval⟩ := accelJ_ok hx hj0 dl beta lambda0 E0 (left_ne_zero_of_mul hbl) (right_ne_zero_of_mul hbl) hE
  rw [hF] at hF'
  obtain rfl := Except.ok.inj hF'
  have hun := uniform_fields env he s hv _ _ hu hdet false t ht
  have hcst : t.2.1 (Spec.midRow S.Nx hx) = fun _ => t.2.1 (Spec.midRow S.Nx hx) j0 := funext fun j => const_of_prev (f := t.2.1 (Spec.midRow S.Nx hx)) (fun j => (hun _ j).2.1) j _
  rw [hval, hcst, gain_const, geom_zero _ hy (by rw [hper]; field_simp), mul_zero, zero_div, Complex.zero_re, zero_div]

/-! ## The best position -/

theorem exists_turn (w : ℂ) (n : ℕ) (hn : 0 < n) : ∃ k < n, ‖w‖ * Real.cos (Real.pi / n) ≤ (Complex.exp ((2 * Real.pi * (k : ℕ) / n : ℝ) * Complex.I) * w).re := by
  have hnr : (0 : ℝ) < n := by exact_mod_cast hn
  have hpi := Real.pi_pos
  set th := w.arg with hth
  set q : ℤ := round (-th * n / (2 * Real.pi)) with hq
  have hqa : |th + 2 * Real.pi * q / n| ≤ Real.pi / n := by
    have h := abs_sub_round (-th * n / (2 * Real.pi))
    rw [← hq] at h
    have e : th + 2 * Real.pi * q / n = -(2 * Real.pi / n) * (-th * n / (2 * Real.pi) - q) := by field_simp; ring
    rw [e, abs_mul, abs_neg, abs_of_pos (by positivity)]
    calc 2 * Real.pi / n * |-th * n / (2 * Real.pi) - q| ≤ 2 * Real.pi / n * (1 / 2) := mul_le_mul_of_nonneg_left h (by positivity)
      _ = Real.pi / n := by ring
  have hn' : (0 : ℤ) < n := by exact_mod_cast hn
  refine ⟨(q % n).toNat, ?_, ?_⟩
  · have := Int.emod_lt_of_pos q hn'
    have := Int.emod_nonneg q hn'.ne'
    omega
  · have hk : (((q % n).toNat : ℕ) : ℝ) = q - n * (q / n : ℤ) := by
      have h1 : (((q % n).toNat : ℕ) : ℤ) = q - n * (q / n) := by
        have := Int.emod_nonneg q hn'.ne'
        have := Int.emod_add_mul_ediv q n
        omega
      exact_mod_cast h1
    have e : Complex.exp ((2 * Real.pi * ((q % n).toNat : ℕ) / n : ℝ) * Complex.I) * w = (‖w‖ : ℂ) * Complex.exp (((th + 2 * Real.pi * q / n : ℝ) : ℂ) * Complex.I) := by
      conv_lhs => rw [← Complex.norm_mul_exp_arg_mul_I w]
      rw [mul_left_comm, ← Complex.exp_add]
      have hx : ((2 * Real.pi * ((q % n).toNat : ℕ) / n : ℝ) : ℂ) * Complex.I + (w.arg : ℂ) * Complex.I = ((th + 2 * Real.pi * q / n : ℝ) : ℂ) * Complex.I - ((q / n : ℤ) : ℂ) * (2 * Real.pi * Complex.I) := by
        rw [hk, ← hth]
        have hnc : (n : ℂ) ≠ 0 := by exact_mod_cast hn.ne'
        push_cast
        field_simp
        ring
      rw [hx, Complex.exp_periodic.sub_int_mul_eq]
    rw [e, Complex.re_ofReal_mul, Complex.exp_ofReal_mul_I_re]
    refine mul_le_mul_of_nonneg_left ?_ (norm_nonneg _)
    rw [← Real.cos_abs (th + _)]
    refine Real.cos_le_cos_of_nonneg_of_le_pi (abs_nonneg _) ?_ hqa
    rw [div_le_iff₀ hnr]
    have : (1 : ℝ) ≤ n := by exact_mod_cast hn
    exact le_mul_of_one_le_right hpi.le this

/-- **C110, the best position.** A device moved along the beam by `k = 0, …, Ny − 1` cells: the objective never exceeds the size of the complex gain over `E0`, comes within a factor `cos (π/Ny)` of it in one
of the positions, and has mean zero over all of them. -/
theorem C110_position (env : Env) (he : env.Exact) (s : Sim Nx Ny) (moved : ℕ → Sim Nx Ny) (h : ∀ k, Spec.Moved 0 k s (moved k)) (hv : s.Valid) (hv' : ∀ k, (moved k).Valid) (hN : s.NPML.2 = 0)
    (hx : 0 < Nx) (hy : 0 < Ny) (hdet : s.A.det ≠ 0) (avg : Bool) (dl beta lambda0 E0 : ℝ) (hd : 0 < dl) (hp : beta * lambda0 = Ny * dl) (hE : 0 < E0) :
    ∃ (F : ObjFn Nx Ny) (t : Triple Nx Ny) (t' : ℕ → Triple Nx Ny) (v : ℕ → ℝ), accelJ Nx Ny dl beta lambda0 E0 = .ok F ∧ (s.solve_fields env false avg).1 = .ok t ∧
      (∀ k, ((moved k).solve_fields env false avg).1 = .ok (t' k) ∧ F.call [(t' k).2.1] = .ok (v k) ∧ v k ≤ ‖Spec.gain (2 * Real.pi / Ny) (t.2.1 (Spec.midRow Nx hx))‖ / E0) ∧
      (∃ k < Ny, ‖Spec.gain (2 * Real.pi / Ny) (t.2.1 (Spec.midRow Nx hx))‖ / E0 * Real.cos (Real.pi / Ny) ≤ v k) ∧ ∑ k ∈ Finset.range Ny, v k = if Ny = 1 then v 0 else 0 := by
  have hNy : (Ny : ℝ) ≠ 0 := by exact_mod_cast hy.ne'
  have hbl : beta * lambda0 ≠ 0 := by rw [hp]; exact mul_ne_zero hNy hd.ne'
  have ha : 2 * Real.pi * dl / (beta * lambda0) = 2 * Real.pi / Ny := by rw [hp]; field_simp
  obtain ⟨F, hF, -, -, hval⟩ := accelJ_ok hx hy dl beta lambda0 E0 (left_ne_zero_of_mul hbl) (right_ne_zero_of_mul hbl) hE.ne'
  rw [ha] at hval
  obtain ⟨t, ht⟩ : ∃ t, (s.solve_fields env false avg).1 = .ok t := ⟨_, rfl⟩
  have hk : ∀ k, ∃ t', ((moved k).solve_fields env false avg).1 = .ok t' ∧
      Spec.gain (2 * Real.pi / Ny) (t'.2.1 (Spec.midRow Nx hx)) = Complex.exp ((2 * Real.pi * (k : ℕ) / Ny : ℝ) * Complex.I) * Spec.gain (2 * Real.pi / Ny) (t.2.1 (Spec.midRow Nx hx)) := by
    intro k
    obtain ⟨t1, t', h1, h2, h3, -⟩ := C104_moved env he s (moved k) k (h k) hv (hv' k) hN hx hy hdet avg dl beta lambda0 hd hp
    rw [ht] at h1
    obtain rfl := Except.ok.inj h1
    rw [ha] at h3
    exact ⟨t', h2, h3⟩
  choose t' ht' hg using hk
  set w := Spec.gain (2 * Real.pi / Ny) (t.2.1 (Spec.midRow Nx hx)) with hw
  refine ⟨F, t, t', fun k => (Complex.exp ((2 * Real.pi * (k : ℕ) / Ny : ℝ) * Complex.I) * w).re / E0, hF, ht, fun k => ⟨ht' k, by rw [hval, hg], ?_⟩, ?_, ?_⟩
  · refine div_le_div_of_nonneg_right ((Complex.re_le_norm _).trans (le_of_eq ?_)) hE.le
    rw [norm_mul, Complex.norm_exp_ofReal_mul_I, one_mul]
  · obtain ⟨k, hk, hle⟩ := exists_turn w Ny hy
    refine ⟨k, hk, ?_⟩
    rw [div_mul_eq_mul_div]
    exact div_le_div_of_nonneg_right hle hE.le
  · rcases Nat.lt_or_ge 1 Ny with h1 | h1
    · rw [if_neg (by omega), ← Finset.sum_div, ← Complex.re_sum, ← Finset.sum_mul, Finset.sum_range]
      have := geom_zero (Ny := Ny) (2 * Real.pi / Ny) h1 (by field_simp)
      rw [Finset.sum_congr rfl fun j _ => show Complex.exp ((2 * Real.pi * ((j : Fin Ny) : ℕ) / Ny : ℝ) * Complex.I) = Complex.exp (((2 * Real.pi / Ny * (j : ℕ) : ℝ) : ℂ) * Complex.I) by congr 3; ring, this,
        zero_mul, Complex.zero_re, zero_div]
    · have e : Ny = 1 := by omega
      rw [if_pos e, e, Finset.sum_range_one]

/-! ## Concrete cases -/

theorem accelerator_case (d eps_m : ℝ) (hd : 0 < d) : ∃ S, accelerator 1 (4 * d) (4 * d) (2 * d) d d (0, 0) eps_m = .ok S ∧ S.Ny = 4 ∧ S.Nx = 12 := by
  have h1 : pyInt ((4 * d + 2 * (2 * d) + 4 * d) / d) = 12 := pyInt_ofInt _ 12 (by field_simp; norm_num)
  have h2 : pyInt (1 * (4 * d) / d) = 4 := pyInt_ofInt _ 4 (by field_simp; norm_num)
  unfold accelerator
  rw [if_neg hd.ne']
  simp only [h1, h2]
  obtain ⟨S, hS⟩ := build_returns (2 * 0 + 12) 4 d eps_m 1 [fun x _ => 4 * d / 2 < |x| ∧ |x| < 4 * d / 2 + 2 * d] [fun x _ => 4 * d / 2 < |x| ∧ |x| < 4 * d / 2 + 2 * d] (by norm_num) (by norm_num)
  obtain ⟨a, b, -⟩ := build_ok hS
  exact ⟨S, hS, by omega, by omega⟩

/-- The structure is twelve cells wide and four long, the source is in row one. -/
example : ∃ S, accelerator 1 4 4 2 1 1 (0, 0) 3 = .ok S ∧ ∃ r : Fin S.Nx, 0 < (r.val : ℤ) ∧ (r.val : ℤ) < S.Nx / 2 ∧ lineSource S.Nx S.Ny (0, 0) 1 1 7 = .ok (fun i _ => if i = r then 7 else 0) := by
  obtain ⟨S, hS, -⟩ := accelerator_case 1 3 one_pos
  norm_num only at hS
  obtain ⟨-, -, -, r, h1, h2, -, h3, -⟩ := C110_layout 1 4 4 2 1 1 3 (0, 0) S hS one_pos (by norm_num) (by norm_num) le_rfl le_rfl 7
  exact ⟨S, hS, r, h1, h2, h3⟩

/-- An unpatterned device three cells wide, with four cells to the period. -/
example (env : Env) (he : env.Exact) : ∃ (F : ObjFn 3 4) (g : Grid 3 4 ℝ), accelJ 3 4 1 (1 / 2) 8 2 = .ok F ∧
    (Opt.compute_dJ env (hopt (fun i _ => stripSrc 3 i) (Objective.mk' F [⟨.Ey, false, .linear_Ey⟩]))).1 = .ok g ∧ ∀ i, ∑ j, g i j = 0 := by
  have hF := accelJ_eq (Nx := 3) (Ny := 4) (by norm_num) (by norm_num) 1 (1 / 2) 8 2 (by norm_num) (by norm_num) two_ne_zero
  obtain ⟨g, c, h1, -, h2⟩ := C110_gradient env he (hopt (fun i _ => stripSrc 3 i) (Objective.mk' _ [⟨.Ey, false, .linear_Ey⟩])) (hsim_valid _) rfl (by norm_num) (by norm_num) _ _ hsim_uniform (hsim_det (by norm_num) (by norm_num) _) rfl (fun _ => 0) (fun _ => 1) rfl
    (fun _ _ => rfl) 1 (1 / 2) 8 2 one_ne_zero (by norm_num) two_ne_zero _ hF ⟨.Ey, false, .linear_Ey⟩ rfl rfl rfl
  exact ⟨_, g, hF, h1, h2⟩

/-- Material of permittivity 3, half of it in the walls; the whole workflow. -/
example (env : Env) (he : env.Exact) : ∃ (S : Structure) (o : Opt S.Nx S.Ny) (g : Grid S.Nx S.Ny ℝ), accelerator 1 (4 * (3 / ETA_0)) (4 * (3 / ETA_0)) (2 * (3 / ETA_0)) (3 / ETA_0) (3 / ETA_0) (0, 0) 3 = .ok S ∧
    o.design_region = S.design_region ∧ (Opt.compute_J env o).1 = .ok 0 ∧ (Opt.compute_dJ env o).1 = .ok g ∧ ∀ i, ∑ j, g i j = 0 := by
  have hd : 0 < 3 / ETA_0 := div_pos (by norm_num) ETA_0_pos
  obtain ⟨S, hS, hSy, hSx⟩ := accelerator_case (3 / ETA_0) 3 hd
  have hr := (C110_layout _ _ _ _ _ _ _ _ S hS hd le_rfl (by positivity) le_rfl le_rfl 1).2.2.2
  obtain ⟨r, -, -, -, hsrc, -⟩ := hr
  have hval : ∀ i j, S.eps_r i j = 3 ∨ S.eps_r i j = 1 := by
    intro i j
    unfold accelerator at hS
    rw [if_neg hd.ne'] at hS
    obtain ⟨-, -, hent⟩ := build_ok hS
    by_cases h : ∃ r ∈ [(fun x _ => 4 * (3 / ETA_0) / 2 < |x| ∧ |x| < 4 * (3 / ETA_0) / 2 + 2 * (3 / ETA_0) : Region)], r (gridCoord S.Nx (3 / ETA_0) i) (gridCoord S.Ny (3 / ETA_0) j)
    · exact Or.inl ((hent i j).1 h)
    · exact Or.inr ((hent i j).2.1 h)
  obtain ⟨s0, hs0⟩ : ∃ s0, Sim.init 1 (fun i j => ((S.eps_r i j : ℝ) : ℂ)) (3 / ETA_0) (.list [((0 : ℕ) : ℝ), 0]) "Hz" (1 / EPSILON_0) = .ok s0 := by
    have hL0 : 0 < 1 / EPSILON_0 := one_div_pos.2 EPSILON_0_pos
    have hc : Sim.check_inputs 1 (1 / EPSILON_0) (.list [((0 : ℕ) : ℝ), 0]) "Hz" = .ok ((((0 : ℕ) : ℝ), 0), .Hz) := by
      unfold Sim.check_inputs
      rw [if_neg (not_not.2 hL0), if_neg (not_not.2 one_pos)]
      simp
    unfold Sim.init
    rw [hc]
    exact ⟨_, rfl⟩
  obtain ⟨hv0, -, -, heps0, -⟩ := init_ok hs0
  obtain ⟨hpol, -⟩ := init_Hz hs0
  have hsd : s0.L0 = 1 / EPSILON_0 ∧ s0.omega = 1 ∧ s0.dl = 3 / ETA_0 := init_numbers hs0
  let draw : Grid S.Nx S.Ny ℝ := fun _ _ => 0
  let s : Sim S.Nx S.Ny := ({ s0 with src := fun i _ => if i = r then 1 else 0 } : Sim S.Nx S.Ny).init_design_region S.design_region 3 .halfway draw
  have hv : s.Valid := ⟨hv0.L0_pos, hv0.omega_pos, hv0.xr, hv0.yr, rfl, construct_A_derivs _ _ _ _ _ _ _ _⟩
  have heps : ∀ i j, ∃ e : ℝ, 1 ≤ e ∧ s.eps_r i j = (e : ℂ) := by
    intro i j
    have e : s.eps_r i j = if S.design_region i j = 1 then (((3 : ℝ) / 2 + 1 / 2 : ℝ) : ℂ) else s0.eps_r i j := rfl
    rw [e, heps0]
    split_ifs
    · exact ⟨_, by norm_num, rfl⟩
    · exact ⟨S.eps_r i j, by rcases hval i j with h | h <;> linarith, rfl⟩
  have hdet : s.A.det ≠ 0 := by
    refine wellposed_Hz s hv hpol (by show 0 < s0.dl; rw [hsd.2.2]; exact hd) (by omega) (by omega) 1 one_pos ?_ ?_
    · have key : ∀ a b : ℂ, (∃ e : ℝ, 1 ≤ e ∧ a = (e : ℂ)) → (∃ e : ℝ, 1 ≤ e ∧ b = (e : ℂ)) → 1 ≤ ‖(a + b) / 2‖ := by
        rintro a b ⟨e, he1, rfl⟩ ⟨f, hf1, rfl⟩
        have : (((e : ℂ) + (f : ℂ)) / 2) = (((e + f) / 2 : ℝ) : ℂ) := by push_cast; rfl
        rw [this, Complex.norm_real, Real.norm_of_nonneg (by linarith)]
        linarith
      intro w i j
      cases w
      · exact key _ _ (heps _ _) (heps _ _)
      · exact key _ _ (heps _ _) (heps _ _)
    · show 8 / (EPSILON_0 * s0.L0 * 1 * s0.dl ^ 2) < s0.omega ^ 2 * (MU_0 * s0.L0)
      rw [hsd.1, hsd.2.1, hsd.2.2, mu0_norm, eps0_norm]
      have := ETA_0_pos
      rw [one_pow, one_mul, one_mul, one_mul, div_pow, div_div_eq_mul_div, div_lt_iff₀ (by norm_num)]
      nlinarith [sq_pos_of_pos this]
  obtain ⟨F, hF, -⟩ := accelJ_ok (Nx := S.Nx) (Ny := S.Ny) (by omega) (by omega) (3 / ETA_0) 1 (4 * (3 / ETA_0)) 2 one_ne_zero (mul_pos (by norm_num) hd).ne' two_ne_zero
  have hF1 : F.arity = 1 := by
    rw [accelJ_eq (by omega) (by omega) _ _ _ _ one_ne_zero (mul_pos (by norm_num) hd).ne' two_ne_zero] at hF
    rw [← Except.ok.inj hF]
    rfl
  have hob : Objective.init F [⟨.Ey, false, .linear_Ey⟩] = .ok (Objective.mk' F [⟨.Ey, false, .linear_Ey⟩]) := by
    unfold Objective.init
    rw [if_neg (not_not.2 (by rw [hF1]; rfl))]
  obtain ⟨h1, g, c, h2, -, h3⟩ := C110_start env he 1 (4 * (3 / ETA_0)) (4 * (3 / ETA_0)) (2 * (3 / ETA_0)) (3 / ETA_0) (3 / ETA_0) 3 1 (1 / EPSILON_0) 2 (1 / 2) 1 0 1 S hS hd le_rfl (by positivity) le_rfl (by omega)
    (by rw [hSy]; push_cast; ring) two_ne_zero s0 hs0 _ hsrc draw hdet F hF _ rfl _ hob _ rfl
  exact ⟨S, _, g, hS, rfl, h1, h2, h3⟩

/-- A device that is not uniform, with four cells to the period: one of its four positions is within a factor `cos (π/4)` of the best. -/
example (env : Env) (he : env.Exact) : ∃ (F : ObjFn 3 4) (t : Triple 3 4) (t' : ℕ → Triple 3 4) (v : ℕ → ℝ), accelJ 3 4 1 (1 / 2) 8 2 = .ok F ∧ ((hsim 3 4 fun i j => (i.val + j.val : ℂ)).solve_fields env).1 = .ok t ∧
    (∀ k, ((toRoll 0 k (hsim 3 4 fun i j => (i.val + j.val : ℂ))).solve_fields env).1 = .ok (t' k) ∧ F.call [(t' k).2.1] = .ok (v k)) ∧
    ∃ k < 4, ‖Spec.gain (2 * Real.pi / (4 : ℕ)) (t.2.1 (Spec.midRow 3 (by norm_num)))‖ / 2 * Real.cos (Real.pi / (4 : ℕ)) ≤ v k :=
  let ⟨F, t, t', v, h1, h2, h3, h4, _⟩ := C110_position env he (hsim 3 4 fun i j => (i.val + j.val : ℂ)) (fun k => toRoll 0 k _) (fun k => toRoll_moved 0 k _) (hsim_valid _) (fun k => toRoll_valid 0 k _ (hsim_valid _)) rfl
    (by norm_num) (by norm_num) (hsim_det (by norm_num) (by norm_num) _) false 1 (1 / 2) 8 2 one_pos (by norm_num) (by norm_num)
  ⟨F, t, t', v, h1, h2, fun k => ⟨(h3 k).1, (h3 k).2.1⟩, h4⟩

end Angler
