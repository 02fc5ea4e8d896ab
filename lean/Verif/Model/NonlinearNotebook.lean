import Verif.Model.NonlinearSolvers

/-! # Kerr self-phase modulation (`Notebooks/Nonlinear_system.ipynb`) -/

namespace Angler

variable {Nx Ny : ℕ}

/-- `fld0 = …['Ez'][20, Ny//2]`, `fld1 = …['Ez'][Nx-20, Ny//2]`, `T = fld1/fld0`, `Notebooks/Nonlinear_system.ipynb`, cells 3 and 4 (linear and nonlinear field).  The two points are arguments.
Division by zero gives `nan` or `inf` in numpy: `.nonFinite`. -/
noncomputable def spmTransmission (Ez : Grid Nx Ny ℂ) (p0 p1 : Fin Nx × Fin Ny) : Except PyErr ℂ :=
  open Classical in if Ez p0.1 p0.2 = 0 then .error .nonFinite else .ok (Ez p1.1 p1.2 / Ez p0.1 p0.2)

/-- The loop over `srcval_vec`, `Notebooks/Nonlinear_system.ipynb`, cell 4: put in the source of the mode with the next amplitude (`del simulation.modes[0]`, `add_mode`, `setup_modes`; `src a` is what
`setup_modes` writes into `simulation.src` for `scale=a`), solve with `solver_nl='newton'` and default settings, read the transmission off `fields_nl['Ez']`, append it to `T_vec`.
The stored linear fields are not recomputed: Newton starts from whatever `fields['Ez']` holds. -/
noncomputable def spmScan (env : Env) (p0 p1 : Fin Nx × Fin Ny) (src : ℝ → Grid Nx Ny ℂ) : List ℝ → Sim Nx Ny → Except PyErr (List ℂ) × Sim Nx Ny
  | [], s => (.ok [], s)
  | a :: l, s =>
    match solve_fields_nl env { s with src := src a } none .newton with
    | (.error e, s1) => (.error e, s1)
    | (.ok _, s1) =>
      match s1.fields_nl .Ez with
      | none => (.error .typeError, s1)
      | some Ez =>
        match spmTransmission Ez p0 p1 with
        | .error e => (.error e, s1)
        | .ok T =>
          match spmScan env p0 p1 src l s1 with
          | (.error e, s2) => (.error e, s2)
          | (.ok ts, s2) => (.ok (T :: ts), s2)

/-- `width_eff = np.square(np.sum(np.square(np.abs(field_profile)))) / np.sum(np.power(np.abs(field_profile), 4))`, `Notebooks/Nonlinear_system.ipynb`, cell 5, in cells. -/
noncomputable def widthEff {N : ℕ} (f : Fin N → ℂ) : Except PyErr ℝ :=
  open Classical in if ∑ j, ‖f j‖ ^ 4 = 0 then .error .nonFinite else .ok ((∑ j, ‖f j‖ ^ 2) ^ 2 / ∑ j, ‖f j‖ ^ 4)

/-- `n2 = 3*chi3/simulation.L0/simulation.L0/(C_0/simulation.L0)/np.sqrt(eps_m)/(EPSILON_0*simulation.L0)`, `Notebooks/Nonlinear_system.ipynb`, cell 5. -/
noncomputable def spmN2 (chi3 L0 eps_m : ℝ) : ℝ := 3 * chi3 / L0 / L0 / (C_0 / L0) / Real.sqrt eps_m / (EPSILON_0 * L0)

/-- `gamma_spm = (omega/3e8*simulation.L0)*n2/Aeff`, `Notebooks/Nonlinear_system.ipynb`, cell 5. -/
noncomputable def spmGamma (omega L0 n2 Aeff : ℝ) : ℝ := omega / 3e8 * L0 * n2 / Aeff

/-- `(pwr_vec*height)*L*gamma_spm`, the phase shift plotted as "analytic", `Notebooks/Nonlinear_system.ipynb`, cell 5 (without the final division by pi). -/
noncomputable def spmAnalytic (power L gamma : ℝ) : ℝ := power * L * gamma

end Angler
