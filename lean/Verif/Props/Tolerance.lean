import Verif.Props.BornConverges
import Verif.Lemmas.KerrBranch

/-! # C81: how much the fields change when the permittivity is not exactly the designed one

Only for `Spec.Coarse` devices (`C75_coarse`), whose systems are uniformly regular. -/

namespace Angler

open Matrix

variable {Nx Ny : ℕ}

/-- The bound on the out-of-plane field: source over margin. -/
noncomputable def Spec.fieldBound (s : Sim Nx Ny) (m S : ℝ) : ℝ := s.omega * S / Spec.margin s m

/-- The bound on the change of the out-of-plane field when the permittivity changes by at most `δ`. -/
noncomputable def Spec.fieldShift (s : Sim Nx Ny) (m S δ : ℝ) : ℝ := s.omega ^ 2 * EPSILON_0 * s.L0 * δ / Spec.margin s m * Spec.fieldBound s m S

theorem norm_le_of_entries {f : Grid Nx Ny ℂ} {b : ℝ} (hb : 0 ≤ b) (h : ∀ i j, ‖f i j‖ ≤ b) : ‖f‖ ≤ b :=
  (pi_norm_le_iff_of_nonneg hb).2 fun i => (pi_norm_le_iff_of_nonneg hb).2 fun j => h i j

/-- Linear systems of coarse devices: the solution is at most the right-hand side over the margin. -/
theorem coarse_bound (s : Sim Nx Ny) (hv : s.Valid) (hp : s.pol = .Ez) (hx : 1 < Nx) (hy : 1 < Ny) (m : ℝ) (hm : ∀ i j, m ≤ ‖s.eps_r i j‖) (hC : Spec.Coarse s m) (f b : Grid Nx Ny ℂ)
    (h : s.A *ᵥ flatten f = flatten b) : ‖f‖ ≤ ‖b‖ / Spec.margin s m := by
  rw [le_div_iff₀ (margin_pos hC), mul_comm]
  refine stable_Ez s hv hp hC.1 hx hy f 0 b (s.omega ^ 2 * EPSILON_0 * s.L0 * m) (fun i j => ?_) ?_
  · simp only [Pi.zero_apply, add_zero]
    exact norm_permittivity_ge s hv m _ _ (hm i j)
  · rw [show flatten (0 : Grid Nx Ny ℂ) = 0 from rfl, add_zero, h]

theorem rhs_eq_flatten (s : Sim Nx Ny) : s.rhs = flatten fun i j => s.src i j * Complex.I * s.omega := by
  refine flat_ext fun i j => ?_
  simp only [Sim.rhs, flatten_pair]

theorem rhs_norm_le (s : Sim Nx Ny) (hv : s.Valid) {S : ℝ} (hS0 : 0 ≤ S) (hS : ∀ i j, ‖s.src i j‖ ≤ S) : ‖(fun i j => s.src i j * Complex.I * s.omega : Grid Nx Ny ℂ)‖ ≤ s.omega * S := by
  refine norm_le_of_entries (mul_nonneg hv.omega_pos.le hS0) fun i j => ?_
  rw [norm_mul, norm_mul, Complex.norm_I, mul_one, Complex.norm_real, Real.norm_of_nonneg hv.omega_pos.le, mul_comm]
  exact mul_le_mul_of_nonneg_left (hS i j) hv.omega_pos.le

/-- Replacing the permittivity changes the system by a diagonal. -/
theorem set_eps_r_mulVec (s : Sim Nx Ny) (hv : s.Valid) (hp : s.pol = .Ez) (eps f : Grid Nx Ny ℂ) :
    (s.set_eps_r eps).A *ᵥ flatten f = s.A *ᵥ flatten f + flatten fun i j => ((s.omega ^ 2 * EPSILON_0 * s.L0 : ℝ) : ℂ) * (eps i j - s.eps_r i j) * f i j := by
  have h1 := construct_A_Ez_split s.omega s.xrange s.yrange eps s.NPML s.L0
  have h2 := construct_A_Ez_split s.omega s.xrange s.yrange s.eps_r s.NPML s.L0
  have e1 : (s.set_eps_r eps).A = (construct_A s.omega s.xrange s.yrange eps s.NPML .Ez s.L0).1 := by rw [← hp]; rfl
  have e2 : s.A = (construct_A s.omega s.xrange s.yrange s.eps_r s.NPML .Ez s.L0).1 := by rw [hv.A_eq, hp]
  rw [e1, e2, h1, h2, Matrix.add_mulVec, Matrix.add_mulVec, spdiag_mulVec, spdiag_mulVec, add_assoc]
  congr 1
  refine flat_ext fun i j => ?_
  simp only [Pi.add_apply, flatten_pair]
  push_cast
  ring

/-- An in-plane magnetic component is at most `2 / (ω μ₀ L₀ dl)` times the out-of-plane field. -/
theorem linField_H_le (s : Sim Nx Ny) (hv : s.Valid) (hx : 1 < Nx) (hy : 1 < Ny) (hd : 0 < s.dl) (f : Grid Nx Ny ℂ) (c : Comp) (hc : c = .Hx ∨ c = .Hy) (i : Fin Nx) (j : Fin Ny) :
    ‖linField s (flatten f) c i j‖ ≤ 2 / (s.omega * (MU_0 * s.L0) * s.dl) * ‖f‖ := by
  have hr := hv.range_lt hd (by omega) (by omega)
  have hdL := hv.dL_eq (by omega) (by omega)
  have hM : (0 : ℝ) < MU_0 * s.L0 := mul_pos MU_0_pos hv.L0_pos
  have hco : ∀ a : ℂ, ‖a‖ = 1 → ‖a / Complex.I / (s.omega : ℂ) / ((MU_0 * s.L0 : ℝ) : ℂ)‖ = 1 / (s.omega * (MU_0 * s.L0)) := by
    intro a ha
    rw [norm_div, norm_div, norm_div, ha, Complex.norm_I, Complex.norm_real, Complex.norm_real, Real.norm_of_nonneg hv.omega_pos.le, Real.norm_of_nonneg hM.le]
    field_simp
  have hdiff : ∀ a b z : ℂ, ‖a‖ ≤ ‖f‖ → ‖b‖ ≤ ‖f‖ → ‖1 / z‖ ≤ 1 → ‖(a - b) / (s.dl : ℂ) / z‖ ≤ 2 * ‖f‖ / s.dl := by
    intro a b z ha hb hz
    rw [div_eq_mul_one_div _ z, norm_mul, norm_div, Complex.norm_real, Real.norm_of_nonneg hd.le]
    have h1 : ‖a - b‖ ≤ 2 * ‖f‖ := (norm_sub_le a b).trans (by linarith)
    calc ‖a - b‖ / s.dl * ‖1 / z‖ ≤ ‖a - b‖ / s.dl * 1 := by gcongr
      _ ≤ 2 * ‖f‖ / s.dl := by rw [mul_one]; gcongr
  have hfin : ∀ x : ℝ, x ≤ 2 * ‖f‖ / s.dl → 1 / (s.omega * (MU_0 * s.L0)) * x ≤ 2 / (s.omega * (MU_0 * s.L0) * s.dl) * ‖f‖ := by
    intro x h
    have ho := hv.omega_pos
    refine (mul_le_mul_of_nonneg_left h (by positivity)).trans (le_of_eq ?_)
    field_simp
  rcases hc with rfl | rfl
  · simp only [linField, unflatten, Pi.smul_apply, smul_eq_mul]
    rw [norm_mul, hco _ (by simp), hv.derivs_eq, mkDerivs_Dyb _ _ _ _ _ hy, flatten_pair, Spec.bwdY, hdL]
    exact hfin _ (hdiff _ _ _ (norm_entry_le _ _ _) (norm_entry_le _ _ _) (C10_pml_factors s.yrange hr.2 s.L0 s.omega hv.L0_pos hv.omega_pos .b Ny s.NPML.2 j).2.2.2.1)
  · simp only [linField, unflatten, Pi.smul_apply, smul_eq_mul]
    rw [norm_mul, hco _ (by simp), hv.derivs_eq, mkDerivs_Dxb _ _ _ _ _ hx, flatten_pair, Spec.bwdX, hdL]
    exact hfin _ (hdiff _ _ _ (norm_entry_le _ _ _) (norm_entry_le _ _ _) (C10_pml_factors s.xrange hr.1 s.L0 s.omega hv.L0_pos hv.omega_pos .b Nx s.NPML.1 i).2.2.2.1)

theorem linField_sub (s : Sim Nx Ny) (X Y : Vec (Nx * Ny) ℂ) (c : Comp) (i : Fin Nx) (j : Fin Ny) : linField s X c i j - linField s Y c i j = linField s (X - Y) c i j := by
  cases c <;> simp only [linField, unflatten, Matrix.mulVec_sub, Pi.smul_apply, Pi.sub_apply, smul_eq_mul, mul_sub]

/-- The three fields of a linear solve. -/
theorem solve_fields_Ez_triple (env : Env) (s : Sim Nx Ny) (hp : s.pol = .Ez) :
    ∃ s', s.solve_fields env = (.ok (linField s (solver_direct env s.A s.rhs) .Hx, linField s (solver_direct env s.A s.rhs) .Hy, linField s (solver_direct env s.A s.rhs) .Ez), s') := by
  obtain ⟨⟨a, b, c⟩, h1, h2⟩ := solve_fields_Ez env s hp
  have e1 : a = _ := Option.some.inj (h2 .Hx trivial)
  have e2 : b = _ := Option.some.inj (h2 .Hy trivial)
  have e3 : c = _ := Option.some.inj (h2 .Ez trivial)
  rw [e1, e2, e3] at h1
  exact ⟨_, h1⟩

/-- **C81, the size of the fields.** Sources of at most `S` drive fields of at most `ω S / margin` (out of plane) and `2 / (ω μ₀ L₀ dl)` times that (in plane). -/
theorem C81_field_bound (env : Env) (he : env.Exact) (s : Sim Nx Ny) (hv : s.Valid) (hp : s.pol = .Ez) (hx : 1 < Nx) (hy : 1 < Ny) (m : ℝ) (hm : ∀ i j, m ≤ ‖s.eps_r i j‖)
    (hC : Spec.Coarse s m) (S : ℝ) (hS : ∀ i j, ‖s.src i j‖ ≤ S) :
    ∃ Hx Hy Ez s', s.solve_fields env = (.ok (Hx, Hy, Ez), s') ∧ ∀ i j, ‖Ez i j‖ ≤ Spec.fieldBound s m S ∧
      ‖Hx i j‖ ≤ 2 / (s.omega * (MU_0 * s.L0) * s.dl) * Spec.fieldBound s m S ∧ ‖Hy i j‖ ≤ 2 / (s.omega * (MU_0 * s.L0) * s.dl) * Spec.fieldBound s m S := by
  obtain ⟨s', hs⟩ := solve_fields_Ez_triple env s hp
  have hS0 : 0 ≤ S := (norm_nonneg _).trans (hS ⟨0, by omega⟩ ⟨0, by omega⟩)
  have hM : (0 : ℝ) < MU_0 * s.L0 := mul_pos MU_0_pos hv.L0_pos
  have hco : 0 ≤ 2 / (s.omega * (MU_0 * s.L0) * s.dl) := by
    have := hv.omega_pos
    have := hC.1
    positivity
  obtain ⟨f, hf⟩ : ∃ f : Grid Nx Ny ℂ, solver_direct env s.A s.rhs = flatten f := ⟨unflatten (solver_direct env s.A s.rhs), (flatten_unflatten _).symm⟩
  have hdet := (C75_coarse s hv hp hx hy m hm hC).1
  have hsol : s.A *ᵥ flatten f = s.rhs := by rw [← hf]; exact solver_direct_spec he (Or.inl hdet)
  have hb : ‖f‖ ≤ Spec.fieldBound s m S := by
    rw [rhs_eq_flatten] at hsol
    refine (coarse_bound s hv hp hx hy m hm hC f _ hsol).trans ?_
    unfold Spec.fieldBound
    have := margin_pos hC
    gcongr
    exact rhs_norm_le s hv hS0 hS
  refine ⟨_, _, _, s', hs, fun i j => ?_⟩
  rw [hf]
  refine ⟨?_, (linField_H_le s hv hx hy hC.1 f .Hx (Or.inl rfl) i j).trans (mul_le_mul_of_nonneg_left hb hco),
    (linField_H_le s hv hx hy hC.1 f .Hy (Or.inr rfl) i j).trans (mul_le_mul_of_nonneg_left hb hco)⟩
  have e : linField s (flatten f) .Ez = f := unflatten_flatten f
  rw [e]
  exact (norm_entry_le f i j).trans hb

/-- **C81, tolerance.** Assigning a permittivity that differs by at most `δ` from the present one changes the fields by at most `ω² ε₀ L₀ δ / margin` times the bound on the fields. -/
theorem C81_tolerance (env : Env) (he : env.Exact) (s : Sim Nx Ny) (hv : s.Valid) (hp : s.pol = .Ez) (hx : 1 < Nx) (hy : 1 < Ny) (m : ℝ) (hm : ∀ i j, m ≤ ‖s.eps_r i j‖)
    (hC : Spec.Coarse s m) (S : ℝ) (hS : ∀ i j, ‖s.src i j‖ ≤ S) (eps : Grid Nx Ny ℂ) (hm' : ∀ i j, m ≤ ‖eps i j‖) (δ : ℝ) (hδ : ∀ i j, ‖eps i j - s.eps_r i j‖ ≤ δ) :
    ∃ Hx Hy Ez s1 Hx' Hy' Ez' s2, s.solve_fields env = (.ok (Hx, Hy, Ez), s1) ∧ (s.set_eps_r eps).solve_fields env = (.ok (Hx', Hy', Ez'), s2) ∧
      ∀ i j, ‖Ez' i j - Ez i j‖ ≤ Spec.fieldShift s m S δ ∧ ‖Hx' i j - Hx i j‖ ≤ 2 / (s.omega * (MU_0 * s.L0) * s.dl) * Spec.fieldShift s m S δ ∧
        ‖Hy' i j - Hy i j‖ ≤ 2 / (s.omega * (MU_0 * s.L0) * s.dl) * Spec.fieldShift s m S δ := by
  obtain ⟨s1, hs1⟩ := solve_fields_Ez_triple env s hp
  obtain ⟨s2, hs2⟩ := solve_fields_Ez_triple env (s.set_eps_r eps) hp
  have hv' := hv.set_eps_r eps
  have hC' : Spec.Coarse (s.set_eps_r eps) m := hC
  have hS0 : 0 ≤ S := (norm_nonneg _).trans (hS ⟨0, by omega⟩ ⟨0, by omega⟩)
  have hδ0 : 0 ≤ δ := (norm_nonneg _).trans (hδ ⟨0, by omega⟩ ⟨0, by omega⟩)
  have hM : (0 : ℝ) < MU_0 * s.L0 := mul_pos MU_0_pos hv.L0_pos
  have hmar := margin_pos hC
  have hc : 0 < s.omega ^ 2 * EPSILON_0 * s.L0 := mul_pos (mul_pos (pow_pos hv.omega_pos 2) EPSILON_0_pos) hv.L0_pos
  have hco : 0 ≤ 2 / (s.omega * (MU_0 * s.L0) * s.dl) := by
    have := hv.omega_pos
    have := hC.1
    positivity
  obtain ⟨f, hf⟩ : ∃ f : Grid Nx Ny ℂ, solver_direct env s.A s.rhs = flatten f := ⟨unflatten (solver_direct env s.A s.rhs), (flatten_unflatten _).symm⟩
  obtain ⟨g, hg⟩ : ∃ g : Grid Nx Ny ℂ, solver_direct env (s.set_eps_r eps).A (s.set_eps_r eps).rhs = flatten g :=
    ⟨unflatten (solver_direct env (s.set_eps_r eps).A (s.set_eps_r eps).rhs), (flatten_unflatten _).symm⟩
  have hfs : s.A *ᵥ flatten f = s.rhs := by rw [← hf]; exact solver_direct_spec he (Or.inl (C75_coarse s hv hp hx hy m hm hC).1)
  have hgs : (s.set_eps_r eps).A *ᵥ flatten g = s.rhs := by
    rw [← hg]; exact solver_direct_spec he (Or.inl (C75_coarse (s.set_eps_r eps) hv' hp hx hy m hm' hC').1)
  have hgb : ‖g‖ ≤ Spec.fieldBound s m S := by
    have h1 := hgs
    rw [rhs_eq_flatten] at h1
    refine (coarse_bound _ hv' hp hx hy m hm' hC' g _ h1).trans ?_
    unfold Spec.fieldBound
    show _ / Spec.margin s m ≤ _
    gcongr
    exact rhs_norm_le s hv hS0 hS
  have hdiff : ‖g - f‖ ≤ Spec.fieldShift s m S δ := by
    have h1 : s.A *ᵥ flatten (g - f) = flatten fun i j => -(((s.omega ^ 2 * EPSILON_0 * s.L0 : ℝ) : ℂ) * (eps i j - s.eps_r i j) * g i j) := by
      rw [show flatten (g - f) = flatten g - flatten f from rfl, Matrix.mulVec_sub, hfs, ← hgs, set_eps_r_mulVec s hv hp]
      refine flat_ext fun i j => ?_
      simp only [Pi.sub_apply, Pi.add_apply, flatten_pair]
      ring
    refine (coarse_bound s hv hp hx hy m hm hC _ _ h1).trans ?_
    unfold Spec.fieldShift
    rw [div_mul_eq_mul_div]
    gcongr
    have hfb : 0 ≤ Spec.fieldBound s m S := (norm_nonneg _).trans hgb
    refine norm_le_of_entries (by positivity) fun i j => ?_
    rw [norm_neg, norm_mul, norm_mul, Complex.norm_real, Real.norm_of_nonneg hc.le]
    have h2 := hδ i j
    have h3 := (norm_entry_le g i j).trans hgb
    gcongr
  refine ⟨_, _, _, s1, _, _, _, s2, hs1, hs2, fun i j => ?_⟩
  have e : ∀ X c, linField (s.set_eps_r eps) X c = linField s X c := by
    intro X c
    have hd : (s.set_eps_r eps).derivs = s.derivs := by rw [hv'.derivs_eq, hv.derivs_eq]; rfl
    cases c <;> simp only [linField, hd] <;> rfl
  rw [hf, hg, e, e, e, linField_sub, linField_sub, linField_sub, show flatten g - flatten f = flatten (g - f) from rfl]
  refine ⟨?_, (linField_H_le s hv hx hy hC.1 (g - f) .Hx (Or.inl rfl) i j).trans (mul_le_mul_of_nonneg_left hdiff hco),
    (linField_H_le s hv hx hy hC.1 (g - f) .Hy (Or.inr rfl) i j).trans (mul_le_mul_of_nonneg_left hdiff hco)⟩
  have e : linField s (flatten (g - f)) .Ez = g - f := unflatten_flatten _
  rw [e]
  exact (norm_entry_le (g - f) i j).trans hdiff

/-- **C81, Kerr devices.** For weakly nonlinear devices the solution of the Kerr equations moves by at most `ω² ε₀ L₀ (δ + κ' R²) R / (margin (1 - rate))`, where `δ` bounds the change of the
permittivity and `κ'` the change of the Kerr coefficient. -/
theorem C81_kerr (s : Sim Nx Ny) (hv : s.Valid) (hp : s.pol = .Ez) (hx : 1 < Nx) (hy : 1 < Ny) (m κ R : ℝ) (h : Spec.WeakKerr s m κ R) (eps : Grid Nx Ny ℂ)
    (h' : Spec.WeakKerr (s.set_eps_r eps) m κ R) (δ κ' : ℝ) (hδ : ∀ i j, ‖eps i j - s.eps_r i j‖ ≤ δ)
    (hκ : ∀ i j, ‖Spec.kerrSum s.nonlinearity eps i j - Spec.kerrSum s.nonlinearity s.eps_r i j‖ ≤ κ')
    (Z Z' : Grid Nx Ny ℂ) (hZ : ∀ i j, Spec.nlResidual s Z i j = 0) (hZ' : ∀ i j, Spec.nlResidual (s.set_eps_r eps) Z' i j = 0) :
    ∀ i j, ‖Z' i j - Z i j‖ ≤ s.omega ^ 2 * EPSILON_0 * s.L0 * (δ + κ' * R ^ 2) * R / (Spec.margin s m * (1 - Spec.bornRate s m κ R)) := by
  have he := exactEnv_exact .pardiso
  have hv' := hv.set_eps_r eps
  have hZf := (nlResidual_zero_iff he s Z (h.bornMat_det hv hp hx hy Z)).1 hZ
  have hZf' := (nlResidual_zero_iff he _ Z' (h'.bornMat_det hv' hp hx hy Z')).1 hZ'
  have hZR : ‖Z‖ ≤ R := by rw [← hZf]; exact h.step_bound he hv hp hx hy Z
  have hZR' : ‖Z'‖ ≤ R := by rw [← hZf']; exact h'.step_bound he hv' hp hx hy Z'
  have hR := h.R_nonneg hv hx hy
  have hmar := margin_pos h.coarse
  obtain ⟨hq0, hq1⟩ := h.rate_mem hv hx hy
  have hδ0 : 0 ≤ δ := (norm_nonneg _).trans (hδ ⟨0, by omega⟩ ⟨0, by omega⟩)
  have hκ0 : 0 ≤ κ' := (norm_nonneg _).trans (hκ ⟨0, by omega⟩ ⟨0, by omega⟩)
  have hc : 0 < s.omega ^ 2 * EPSILON_0 * s.L0 := mul_pos (mul_pos (pow_pos hv.omega_pos 2) EPSILON_0_pos) hv.L0_pos
  set f := (bornStep (exactEnv .pardiso) s Z').2.2 with hfdef
  have hsf : bornMat s Z' *ᵥ flatten f = s.rhs := bornStep_solves he Z' (h.bornMat_det hv hp hx hy Z')
  have hsz : bornMat (s.set_eps_r eps) Z' *ᵥ flatten Z' = s.rhs := by
    have := bornStep_solves he (s := s.set_eps_r eps) Z' (h'.bornMat_det hv' hp hx hy Z')
    rw [hZf'] at this
    exact this
  have h1 : bornMat s Z' *ᵥ flatten (f - Z') = flatten fun i j => ((s.omega ^ 2 * EPSILON_0 * s.L0 : ℝ) : ℂ) * ((eps i j - s.eps_r i j) +
      (Spec.kerrSum s.nonlinearity eps i j - Spec.kerrSum s.nonlinearity s.eps_r i j) * ((‖Z' i j‖ ^ 2 : ℝ) : ℂ)) * Z' i j := by
    rw [show flatten (f - Z') = flatten f - flatten Z' from rfl, Matrix.mulVec_sub, hsf, ← hsz, bornMat_spdiag, bornMat_spdiag, Matrix.add_mulVec, Matrix.add_mulVec, set_eps_r_mulVec s hv hp,
      spdiag_mulVec, spdiag_mulVec]
    refine flat_ext fun i j => ?_
    have e1 : (s.set_eps_r eps).omega = s.omega := rfl
    have e2 : (s.set_eps_r eps).L0 = s.L0 := rfl
    have e3 : (s.set_eps_r eps).nonlinearity = s.nonlinearity := rfl
    have e4 : (s.set_eps_r eps).eps_r = eps := rfl
    simp only [Pi.sub_apply, Pi.add_apply, flatten_pair, e1, e2, e3, e4]
    ring
  have h2 := h.frozen_bound hv hp hx hy Z' (f - Z') _ h1
  have h3 : Spec.margin s m * ‖f - Z'‖ ≤ s.omega ^ 2 * EPSILON_0 * s.L0 * (δ + κ' * R ^ 2) * R := by
    refine h2.trans (norm_le_of_entries (by positivity) fun i j => ?_)
    rw [norm_mul, norm_mul, Complex.norm_real, Real.norm_of_nonneg hc.le]
    have hz := (norm_entry_le Z' i j).trans hZR'
    have h4 : ‖(eps i j - s.eps_r i j) + (Spec.kerrSum s.nonlinearity eps i j - Spec.kerrSum s.nonlinearity s.eps_r i j) * ((‖Z' i j‖ ^ 2 : ℝ) : ℂ)‖ ≤ δ + κ' * R ^ 2 := by
      refine (norm_add_le _ _).trans (add_le_add (hδ i j) ?_)
      rw [norm_mul, Complex.norm_real, Real.norm_of_nonneg (by positivity)]
      have := hκ i j
      gcongr
    gcongr
  have h4 := h.step_contracts he hv hp hx hy Z' Z hZR' hZR
  rw [← hfdef, hZf] at h4
  intro i j
  rw [le_div_iff₀ (mul_pos hmar (by linarith))]
  have h5 : ‖Z' - Z‖ ≤ ‖f - Z'‖ + Spec.bornRate s m κ R * ‖Z' - Z‖ := by
    have : Z' - Z = -(f - Z') + (f - Z) := by abel
    calc ‖Z' - Z‖ = ‖-(f - Z') + (f - Z)‖ := by rw [← this]
      _ ≤ ‖-(f - Z')‖ + ‖f - Z‖ := norm_add_le _ _
      _ ≤ _ := by rw [norm_neg]; gcongr
  have h6 : ‖Z' i j - Z i j‖ ≤ ‖Z' - Z‖ := norm_entry_le (Z' - Z) i j
  have h7 : ‖Z' i j - Z i j‖ * (Spec.margin s m * (1 - Spec.bornRate s m κ R)) ≤ ‖Z' - Z‖ * (Spec.margin s m * (1 - Spec.bornRate s m κ R)) :=
    mul_le_mul_of_nonneg_right h6 (mul_nonneg hmar.le (by linarith))
  nlinarith [mul_le_mul_of_nonneg_left h5 hmar.le]

/-! ## Resonance -/

theorem resonant_det (t : ℝ) (h0 : 0 < t) (h4 : t < 4) (src : Grid 2 2 ℂ) : (wsim .Ez (fun _ _ => ((4 + t : ℝ) : ℂ)) src).A.det ≠ 0 := by
  intro hdet
  obtain ⟨W, hW0, hW⟩ := Matrix.exists_mulVec_eq_zero_iff.2 hdet
  obtain ⟨g, rfl⟩ : ∃ g : Grid 2 2 ℂ, W = flatten g := ⟨unflatten W, (flatten_unflatten W).symm⟩
  rw [wsim_Ez_apply] at hW
  have hp := fun i j => congrFun hW (finProdFinEquiv (i, j))
  simp only [flatten_pair, Pi.zero_apply] at hp
  have h00 := hp 0 0
  have h01 := hp 0 1
  have h10 := hp 1 0
  have h11 := hp 1 1
  norm_num at h00 h01 h10 h11
  have t0 : (t : ℂ) ≠ 0 := by exact_mod_cast h0.ne'
  have t1 : (4 + t : ℂ) ≠ 0 := by
    have : (4 + t : ℝ) ≠ 0 := by linarith
    exact_mod_cast this
  have t2 : (t - 4 : ℂ) ≠ 0 := by
    have : (t - 4 : ℝ) ≠ 0 := by linarith
    exact_mod_cast this
  have e1 : g 0 0 + g 0 1 + g 1 0 + g 1 1 = 0 := (mul_eq_zero.1 (show (4 + t : ℂ) * (g 0 0 + g 0 1 + g 1 0 + g 1 1) = 0 by linear_combination h00 + h01 + h10 + h11)).resolve_left t1
  have e2 : g 0 0 + g 0 1 - g 1 0 - g 1 1 = 0 := (mul_eq_zero.1 (show (t : ℂ) * (g 0 0 + g 0 1 - g 1 0 - g 1 1) = 0 by linear_combination h00 + h01 - h10 - h11)).resolve_left t0
  have e3 : g 0 0 - g 0 1 + g 1 0 - g 1 1 = 0 := (mul_eq_zero.1 (show (t : ℂ) * (g 0 0 - g 0 1 + g 1 0 - g 1 1) = 0 by linear_combination h00 - h01 + h10 - h11)).resolve_left t0
  have e4 : g 0 0 - g 0 1 - g 1 0 + g 1 1 = 0 := (mul_eq_zero.1 (show (t - 4 : ℂ) * (g 0 0 - g 0 1 - g 1 0 + g 1 1) = 0 by linear_combination h00 - h01 - h10 + h11)).resolve_left t2
  apply hW0
  refine flat_ext fun i j => ?_
  rw [flatten_pair, Pi.zero_apply]
  fin_cases i <;> fin_cases j <;> simp only [Fin.zero_eta, Fin.mk_one, Fin.isValue]
  · linear_combination (e1 + e2 + e3 + e4) / 4
  · linear_combination (e1 + e2 - e3 - e4) / 4
  · linear_combination (e1 - e2 + e3 - e4) / 4
  · linear_combination (e1 - e2 - e3 + e4) / 4

/-- **C81, negation for other devices.** Near a resonance no change of the permittivity is small enough: for every tolerance `δ` and every bound `B` there is a device with source 1 and a change of
its permittivity by at most `δ`, both with regular systems, that changes the field by more than `B`. -/
theorem C81_resonant (env : Env) (he : env.Exact) (δ B : ℝ) (hδ : 0 < δ) :
    ∃ (s : Sim 2 2) (eps : Grid 2 2 ℂ), s.Valid ∧ s.pol = .Ez ∧ s.NPML = (0, 0) ∧ (∀ i j, ‖s.src i j‖ = 1) ∧ (∀ i j, ‖eps i j - s.eps_r i j‖ ≤ δ) ∧ s.A.det ≠ 0 ∧ (s.set_eps_r eps).A.det ≠ 0 ∧
      ∃ Hx Hy Ez s1 Hx' Hy' Ez' s2, s.solve_fields env = (.ok (Hx, Hy, Ez), s1) ∧ (s.set_eps_r eps).solve_fields env = (.ok (Hx', Hy', Ez'), s2) ∧ ∀ i j, B < ‖Ez' i j - Ez i j‖ := by
  let f : Grid 2 2 ℂ := fun i _ => if i = 0 then 1 else -1
  obtain ⟨t, ht0, ht1, htδ, htB⟩ : ∃ t : ℝ, 0 < t ∧ t < 1 ∧ t ≤ δ ∧ B < 1 / (2 * t) := by
    refine ⟨min (min δ (1 / 2)) (1 / (2 * (|B| + 1))), lt_min (lt_min hδ (by norm_num)) (by positivity), ?_, ?_, ?_⟩
    · exact lt_of_le_of_lt ((min_le_left _ _).trans (min_le_right _ _)) (by norm_num)
    · exact (min_le_left _ _).trans (min_le_left _ _)
    · have hpos : 0 < min (min δ (1 / 2)) (1 / (2 * (|B| + 1))) := lt_min (lt_min hδ (by norm_num)) (by positivity)
      rw [lt_div_iff₀ (by positivity)]
      have h1 : min (min δ (1 / 2)) (1 / (2 * (|B| + 1))) ≤ 1 / (2 * (|B| + 1)) := min_le_right _ _
      have h2 : (|B| + 1) * (2 * min (min δ (1 / 2)) (1 / (2 * (|B| + 1)))) ≤ 1 := by
        calc (|B| + 1) * (2 * min (min δ (1 / 2)) (1 / (2 * (|B| + 1)))) ≤ (|B| + 1) * (2 * (1 / (2 * (|B| + 1)))) := by gcongr
          _ = 1 := by field_simp
      nlinarith [le_abs_self B]
  let s := wsim .Ez (fun _ _ => ((4 + t : ℝ) : ℂ)) f
  let s' := wsim .Ez (fun _ _ => ((4 + 2 * t : ℝ) : ℂ)) f
  have hsol : ∀ u : ℝ, 0 < u → u < 4 → solver_direct env (wsim .Ez (fun _ _ => ((4 + u : ℝ) : ℂ)) f).A (wsim .Ez (fun _ _ => ((4 + u : ℝ) : ℂ)) f).rhs = flatten fun i j => Complex.I / (u : ℂ) * f i j := by
    intro u hu hu4
    have hu' : (u : ℂ) ≠ 0 := by exact_mod_cast hu.ne'
    refine solver_direct_unique he (resonant_det u hu hu4 f) ?_
    rw [wsim_Ez_apply]
    refine flat_ext fun i j => ?_
    have hr : (wsim .Ez (fun _ _ => ((4 + u : ℝ) : ℂ)) f).rhs (finProdFinEquiv (i, j)) = f i j * Complex.I := by
      simp only [Sim.rhs, wsim, flatten_pair]
      simp
    rw [hr, flatten_pair]
    fin_cases i <;> fin_cases j <;> simp [f] <;> field_simp <;> ring
  have hset : s.set_eps_r (fun _ _ => ((4 + 2 * t : ℝ) : ℂ)) = s' := rfl
  obtain ⟨s1, hs1⟩ := solve_fields_Ez_triple env s rfl
  obtain ⟨s2, hs2⟩ := solve_fields_Ez_triple env s' rfl
  refine ⟨s, fun _ _ => ((4 + 2 * t : ℝ) : ℂ), wsim_valid _ _ _, rfl, rfl, fun i j => ?_, fun i j => ?_, resonant_det t ht0 (by linarith) f, ?_, _, _, _, s1, _, _, _, s2, hs1, hs2, fun i j => ?_⟩
  · fin_cases i <;> simp [s, wsim, f]
  · show ‖((4 + 2 * t : ℝ) : ℂ) - ((4 + t : ℝ) : ℂ)‖ ≤ δ
    rw [← Complex.ofReal_sub, Complex.norm_real, Real.norm_eq_abs, show (4 + 2 * t) - (4 + t) = t by ring, abs_of_pos ht0]
    exact htδ
  · rw [hset]; exact resonant_det (2 * t) (by linarith) (by linarith) f
  · have e1 := hsol t ht0 (by linarith)
    have e2 := hsol (2 * t) (by linarith) (by linarith)
    rw [show solver_direct env s.A s.rhs = _ from e1, show solver_direct env s'.A s'.rhs = _ from e2]
    have e3 : ∀ (q : Sim 2 2) (g : Grid 2 2 ℂ), linField q (flatten g) .Ez = g := fun q g => unflatten_flatten g
    rw [e3, e3]
    have hf : ‖f i j‖ = 1 := by fin_cases i <;> simp [f]
    have ht' : (t : ℂ) ≠ 0 := by exact_mod_cast ht0.ne'
    have e4 : Complex.I / ((2 * t : ℝ) : ℂ) * f i j - Complex.I / (t : ℂ) * f i j = -(Complex.I * f i j / ((2 * t : ℝ) : ℂ)) := by
      push_cast
      field_simp
      ring
    rw [e4, norm_neg, norm_div, norm_mul, Complex.norm_I, hf, Complex.norm_real, Real.norm_of_nonneg (by positivity), one_mul]
    exact htB

/-! ## Examples -/

/-- Any size and any layers, in normalised units: an error of `δ` in the permittivity changes `Ez` by at most `81 δ` per unit of source. -/
example (env : Env) (he : env.Exact) (hx : 1 < Nx) (hy : 1 < Ny) (P : ℕ) (src eps eps' : Grid Nx Ny ℂ) (hs : ∀ i j, ‖src i j‖ ≤ 1) (h1 : ∀ i j, 1 ≤ ‖eps i j‖) (h2 : ∀ i j, 1 ≤ ‖eps' i j‖)
    (h3 : ∀ i j, ‖eps' i j - eps i j‖ ≤ 1 / 1000) :
    ∃ t t', ((fsim P eps src).solve_fields env).1 = .ok t ∧ (((fsim P eps src).set_eps_r eps').solve_fields env).1 = .ok t' ∧ ∀ i j, ‖t'.2.2 i j - t.2.2 i j‖ ≤ 81 / 1000 := by
  obtain ⟨Hx, Hy, Ez, s1, Hx', Hy', Ez', s2, e1, e2, h⟩ := C81_tolerance env he (fsim P eps src) (fsim_valid P eps src) rfl hx hy 1 h1 (fsim_coarse P eps src) 1 hs eps' h2 (1 / 1000) h3
  refine ⟨_, _, by rw [e1], by rw [e2], fun i j => (h i j).1.trans (le_of_eq ?_)⟩
  have hm : Spec.margin (fsim P eps src) 1 = 1 / 9 := cksim_margin P 0 eps src
  unfold Spec.fieldShift Spec.fieldBound
  rw [hm, show (fsim P eps src).omega = 1 from rfl, show (fsim P eps src).L0 = 1 / EPSILON_0 from rfl]
  have := EPSILON_0_pos.ne'
  field_simp
  norm_num

/-- A Kerr device with `χ = 1`, any size and any layers, driven by sources up to `1/100`: for every error `δ` of the permittivity the exact Kerr field moves by at most `2 δ`. -/
example (hx : 1 < Nx) (hy : 1 < Ny) (P : ℕ) (src eps eps' : Grid Nx Ny ℂ) (hs : ∀ i j, ‖src i j‖ ≤ 1 / 100) (h1 : ∀ i j, 1 ≤ (eps i j).re) (h2 : ∀ i j, 1 ≤ (eps' i j).re) (δ : ℝ)
    (h3 : ∀ i j, ‖eps' i j - eps i j‖ ≤ δ) :
    ∃ Z Z' : Grid Nx Ny ℂ, (∀ i j, Spec.nlResidual (cksim P 1 eps src) Z i j = 0) ∧ (∀ i j, Spec.nlResidual ((cksim P 1 eps src).set_eps_r eps') Z' i j = 0) ∧ ∀ i j, ‖Z' i j - Z i j‖ ≤ 2 * δ := by
  have hw := cksim_weak P 1 (1 / 100) zero_le_one (by norm_num) (by norm_num) eps src h1 hs
  have hw' : Spec.WeakKerr ((cksim P 1 eps src).set_eps_r eps') 1 (3 * 1) (9 * (1 / 100)) :=
    { cksim_weak P 1 (1 / 100) zero_le_one (by norm_num) (by norm_num) eps' src h2 hs with }
  have hv := cksim_valid P 1 eps src
  obtain ⟨Z, hZ, -, -⟩ := C76_unique_solution _ hv rfl hx hy _ _ _ hw
  obtain ⟨Z', hZ', -, -⟩ := C76_unique_solution _ (hv.set_eps_r eps') rfl hx hy _ _ _ hw'
  refine ⟨Z, Z', hZ, hZ', fun i j => ?_⟩
  have hδ : 0 ≤ δ := (norm_nonneg _).trans (h3 i j)
  refine (C81_kerr _ hv rfl hx hy 1 _ _ hw eps' hw' δ 0 h3 (fun i j => ?_) Z Z' hZ hZ' i j).trans ?_
  · simp [Spec.kerrSum, Spec.kerrCoef, cksim]
  · unfold Spec.bornRate
    rw [cksim_margin, show (cksim P 1 eps src).omega = 1 from rfl, show (cksim P 1 eps src).L0 = 1 / EPSILON_0 from rfl, one_pow, one_mul, mul_one_div_cancel EPSILON_0_pos.ne',
      div_le_iff₀ (by norm_num)]
    norm_num
    nlinarith

end Angler
