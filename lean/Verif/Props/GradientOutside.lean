import Verif.Props.GradientEz

/-! # C33: the gradient vanishes outside the design region -/

namespace Angler

open Matrix

variable {Nx Ny : ℕ}

/-- Row `(i0, j0)` of the filter is the row of the identity. -/
def Spec.RowId (W : Mat (Nx * Ny) ℝ) (i0 : Fin Nx) (j0 : Fin Ny) : Prop :=
  ∀ k, W (finProdFinEquiv (i0, j0)) k = if finProdFinEquiv (i0, j0) = k then 1 else 0

theorem rowId_one (i0 : Fin Nx) (j0 : Fin Ny) : Spec.RowId (1 : Mat (Nx * Ny) ℝ) i0 j0 := fun _ => Matrix.one_apply

theorem rowId_get_W {design : Grid Nx Ny ℝ} {NPML : ℕ × ℕ} {R : ℕ} {W : Mat (Nx * Ny) ℝ} (hW : get_W Nx Ny design NPML R = .ok W) {i0 : Fin Nx} {j0 : Fin Ny}
    (hd : design i0 j0 = 0) : Spec.RowId W i0 j0 := by
  intro k
  have h := C05_filter_identity_outside design NPML R W hW (unflatten fun m => if m = k then 1 else 0) i0 j0 hd
  simp only [rho2rhot, flatten_unflatten, unflatten, mulVec, dotProduct, mul_ite, mul_one, mul_zero, Finset.sum_ite_eq', Finset.mem_univ, if_true] at h
  exact h

/-- `filtDot` with a factor that vanishes outside the design region. -/
theorem filtDot_outside (o : Opt Nx Ny) (v aj : Vec (Nx * Ny) ℂ) {i0 : Fin Nx} {j0 : Fin Ny} (hr : Spec.RowId o.W i0 j0) (hv : v (finProdFinEquiv (i0, j0)) = 0) :
    Opt.filtDot o v aj (finProdFinEquiv (i0, j0)) = 0 := by
  unfold Opt.filtDot
  refine Finset.sum_eq_zero fun k _ => ?_
  rw [drhot_drho, hr k]
  by_cases h : finProdFinEquiv (i0, j0) = k
  · rw [if_pos h, ← h, hv]; simp
  · rw [if_neg h]; simp

theorem dAdeps_outside (o : Opt Nx Ny) {i0 : Fin Nx} {j0 : Fin Ny} (hd : o.design_region i0 j0 = 0) : Opt.dAdeps o (finProdFinEquiv (i0, j0)) = 0 := by
  simp [Opt.dAdeps, flatten_pair, hd]

theorem tail_Ez_outside (o : Opt Nx Ny) (rho : Grid Nx Ny ℝ) (E a : Grid Nx Ny ℂ) {i0 : Fin Nx} {j0 : Fin Ny} (hr : Spec.RowId o.W i0 j0) (hd : o.design_region i0 j0 = 0) :
    Opt.tail_Ez o rho E a i0 j0 = 0 := by
  show (Opt.filtDot o _ _ (finProdFinEquiv (i0, j0))).re = 0
  rw [filtDot_outside o _ _ hr (by rw [dAdeps_outside o hd, mul_zero]), Complex.zero_re]

theorem tail_Hz_outside (env : Env) (o : Opt Nx Ny) (rho : Grid Nx Ny ℝ) (H b : Grid Nx Ny ℂ) {i0 : Fin Nx} {j0 : Fin Ny} (hr : Spec.RowId o.W i0 j0) (hd : o.design_region i0 j0 = 0) :
    Opt.tail_Hz env o rho H b i0 j0 = 0 := by
  show (Opt.filtDot o _ _ (finProdFinEquiv (i0, j0)) + Opt.filtDot o _ _ (finProdFinEquiv (i0, j0))).re = 0
  rw [filtDot_outside o _ _ hr (by rw [dAdeps_outside o hd, mul_zero]), filtDot_outside o _ _ hr (by rw [dAdeps_outside o hd, mul_zero]), add_zero, Complex.zero_re]

/-- Every gradient function returns 0 at a pixel outside the design region. -/
theorem gradFn_outside (env : Env) (o : Opt Nx Ny) (fn : GradFn) (p F : Grid Nx Ny ℂ) {i0 : Fin Nx} {j0 : Fin Ny} (hr : Spec.RowId o.W i0 j0) (hd : o.design_region i0 j0 = 0)
    {g : Grid Nx Ny ℝ} {s : Sim Nx Ny} (h : Opt.gradFn env o fn p F = (.ok g, s)) : g i0 j0 = 0 := by
  have lin : ∀ {T : Grid Nx Ny ℝ → Grid Nx Ny ℝ}, (∀ rho, T rho i0 j0 = 0) →
      (do let rho ← Opt.getRho o.simulation; return T rho : Except PyErr (Grid Nx Ny ℝ)) = .ok g → g i0 j0 = 0 := by
    intro T hT hg
    rcases hq : Opt.getRho o.simulation with e | rho
    · rw [hq] at hg; cases hg
    · rw [hq] at hg; cases hg; exact hT rho
  cases fn <;> simp only [Opt.gradFn, Prod.mk.injEq, reduceCtorEq, false_and] at h
  · exact lin (fun rho => tail_Ez_outside o rho _ _ hr hd) h.1
  · unfold Opt.grad_kerr_Ez at h
    rcases hq : adjoint_kerr_Ez env o.simulation (fun i j => -p i j) with e | a
    · rw [hq] at h; cases h
    · rw [hq] at h
      simp only at h
      rcases hq2 : Opt.getRho (o.simulation.compute_nl F) with e | rho
      · rw [hq2] at h; cases h
      · rw [hq2] at h
        cases h
        show (Opt.filtDot o _ _ (finProdFinEquiv (i0, j0))).re = 0
        rw [filtDot_outside o _ _ hr (by rw [dAdeps_outside o hd, flatten_pair o.design_region, hd]; simp), Complex.zero_re]
  · exact lin (fun rho => tail_Ez_outside o rho _ _ hr hd) h.1
  · exact lin (fun rho => tail_Ez_outside o rho _ _ hr hd) h.1
  · exact lin (fun rho => tail_Hz_outside env o rho _ _ hr hd) h.1
  · exact lin (fun rho => tail_Hz_outside env o rho _ _ hr hd) h.1
  · exact lin (fun rho => tail_Hz_outside env o rho _ _ hr hd) h.1

theorem dJLoop_outside (env : Env) {k : ℕ} (dJ : (d : Fin k) → Except PyErr (Grid Nx Ny ℂ)) {i0 : Fin Nx} {j0 : Fin Ny} (l : List (GradFn × Fin k × ObjArg)) :
    ∀ (o : Opt Nx Ny) (other : Option (Sim Nx Ny)) (acc g : Grid Nx Ny ℝ), Spec.RowId o.W i0 j0 → o.design_region i0 j0 = 0 → acc i0 j0 = 0 →
      (Opt.dJLoop env l dJ o other acc).1 = .ok g → g i0 j0 = 0 := by
  induction l with
  | nil =>
    intro o other acc g _ _ ha h
    cases h
    exact ha
  | cons x l ih =>
    intro o other acc g hr hd ha h
    obtain ⟨fn, d, a⟩ := x
    simp only [Opt.dJLoop] at h
    generalize (if a.nl = true then (o.target other).fields_nl (o.target other).pol.comp else (o.target other).fields (o.target other).pol.comp) = F at h
    rcases F with _ | F
    · cases h
    · rcases hp : dJ d with e | p
      · rw [hp] at h; cases h
      · rw [hp] at h
        simp only at h
        rcases hq : Opt.gradFn env o fn p F with ⟨e | gr, s1⟩
        · rw [hq] at h; cases h
        · rw [hq] at h
          simp only at h
          refine ih { o with simulation := s1 } other _ g hr hd ?_ h
          simp only [ha, gradFn_outside env o fn p F hr hd hq, add_zero]

theorem solveArgFields_frame (env : Env) (o : Opt Nx Ny) (other : Option (Sim Nx Ny)) :
    (Opt.solveArgFields env o other).2.1.W = o.W ∧ (Opt.solveArgFields env o other).2.1.design_region = o.design_region := by
  unfold Opt.solveArgFields
  by_cases h : o.fields_current = false ∨ (o.field_arg_list.getD []).isEmpty
  · rw [if_pos h]
    rcases Opt.solveAll env o.objective.isLinear (o.target other) with ⟨e | u, s1⟩
    · cases other <;> exact ⟨rfl, rfl⟩
    · simp only
      rcases Opt.collect s1 o.objective.arg_list with e | fs <;> cases other <;> exact ⟨rfl, rfl⟩
  · rw [if_neg h]; exact ⟨rfl, rfl⟩

/-- **C33.** Whatever the objective (any components, linear or nonlinear), the simulation and the history: if `compute_dJ` returns a gradient, its entry at each pixel with
`design_region = 0` is 0, with the filter from `get_W` (any radius, any NPML) or without a filter. -/
theorem C33_gradient_zero_outside (env : Env) (o : Opt Nx Ny) (other : Option (Sim Nx Ny)) (g : Grid Nx Ny ℝ) (h : (Opt.compute_dJ env o other).1 = .ok g)
    (hW : o.W = 1 ∨ ∃ NPML R, get_W Nx Ny o.design_region NPML R = .ok o.W) (i0 : Fin Nx) (j0 : Fin Ny) (hd : o.design_region i0 j0 = 0) : g i0 j0 = 0 := by
  have hr : Spec.RowId o.W i0 j0 := by
    rcases hW with h1 | ⟨NPML, R, h1⟩
    · rw [h1]; exact rowId_one i0 j0
    · exact rowId_get_W h1 hd
  unfold Opt.compute_dJ at h
  have hf := solveArgFields_frame env o other
  rcases hs : Opt.solveArgFields env o other with ⟨e | u, o1, other1⟩
  · rw [hs] at h; cases h
  · rw [hs] at h hf
    simp only at h hf
    exact dJLoop_outside env _ _ o1 other1 _ g (by rw [hf.1]; exact hr) (by rw [hf.2]; exact hd) rfl h

/-- A case where a gradient is returned: intensity of Ez, `9 × 9` grid, one design pixel; the entry at `(0, 0)` is 0. -/
example (env : Env) (he : env.Exact) (src : Grid 9 9 ℂ) :
    let o := gopt 1 src (Objective.mk' (intensityJ 9 9) [⟨.Ez, false, .linear_Ez⟩]) (fun i j => if i = 4 ∧ j = 4 then 1 else 0) 1
    ∃ g, (Opt.compute_dJ env o).1 = .ok g ∧ g 0 0 = 0 := by
  have hS := gopt_setup env (Nx := 9) (Ny := 9) (by norm_num) (by norm_num) 1 src (intensityJ 9 9) [⟨.Ez, false, .linear_Ez⟩] (fun i j => if i = 4 ∧ j = 4 then 1 else 0) 1 rfl
    (intensityJ_autograd (Nx := 9) (Ny := 9))
  obtain ⟨x, g, f, h1, -⟩ := gradient_Ez_formula env he _ _ _ _ hS (by
    intro a ha
    rw [List.mem_singleton] at ha
    rw [ha]; exact ⟨rfl, trivial, rfl⟩) 4 4
  exact ⟨g, h1, C33_gradient_zero_outside env _ _ g h1 (Or.inl rfl) 0 0 (show (if (0 : Fin 9) = 4 ∧ (0 : Fin 9) = 4 then (1 : ℝ) else 0) = 0 from if_neg (by decide))⟩

end Angler
