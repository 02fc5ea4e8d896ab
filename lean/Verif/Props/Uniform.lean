import Verif.Lemmas.PlaneWaves
import Verif.Lemmas.GradientEz
import Mathlib.LinearAlgebra.Matrix.NonsingularInverse

/-! # C92: plane waves in uniform media -/

namespace Angler

open Matrix

variable {Nx Ny : ℕ}

/-- The defect of the dispersion relation of the grid, `ω² μ ε = (4/h²) (sin²(π p/Nx) + sin²(π r/Ny))`, for the plane wave with `p` and `r` periods. -/
noncomputable def Spec.gridDefect (omega h : ℝ) (mu eps : ℂ) (Nx Ny : ℕ) (p r : ℤ) : ℂ :=
  (omega : ℂ) ^ 2 * mu * eps - ((4 / h ^ 2 * (Real.sin (Real.pi * p / Nx) ^ 2 + Real.sin (Real.pi * r / Ny) ^ 2) : ℝ) : ℂ)

/-- The defect of the dispersion relation of the medium, `ω² μ ε = kx² + ky²`, for the wave with `p` and `r` periods on a domain of size `Lx × Ly`. -/
noncomputable def Spec.defect (omega : ℝ) (mu eps : ℂ) (Lx Ly : ℝ) (p r : ℤ) : ℂ :=
  (omega : ℂ) ^ 2 * mu * eps - (((2 * Real.pi * p / Lx) ^ 2 + (2 * Real.pi * r / Ly) ^ 2 : ℝ) : ℂ)

theorem stiff_mul_mass (pol : Pol) (mu eps : ℂ) : Spec.stiff pol mu eps * Spec.mass pol mu eps = mu * eps := by
  cases pol
  · rfl
  · exact mul_comm _ _

/-- **C92, plane waves.** In a uniform medium without layers every plane wave is an eigenvector of the system matrix; its eigenvalue is the defect of the dispersion relation of the grid
divided by the permeability (Ez) or permittivity (Hz). -/
theorem C92_eigen (s : Sim Nx Ny) (hv : s.Valid) (hdl : 0 < s.dl) (hx : 1 < Nx) (hy : 1 < Ny) (hN : s.NPML = (0, 0)) (e : ℂ) (he : ∀ i j, s.eps_r i j = e) (he0 : e ≠ 0) (p r : ℤ) :
    s.A *ᵥ flatten (Spec.planeWave Nx Ny p r) =
      (Spec.gridDefect s.omega s.dl ((MU_0 * s.L0 : ℝ) : ℂ) (((EPSILON_0 * s.L0 : ℝ) : ℂ) * e) Nx Ny p r /
        Spec.stiff s.pol ((MU_0 * s.L0 : ℝ) : ℂ) (((EPSILON_0 * s.L0 : ℝ) : ℂ) * e)) • flatten (Spec.planeWave Nx Ny p r) := by
  have hM : ((MU_0 * s.L0 : ℝ) : ℂ) ≠ 0 := by exact_mod_cast (mul_pos MU_0_pos hv.L0_pos).ne'
  have hE : ((EPSILON_0 * s.L0 : ℝ) : ℂ) ≠ 0 := by exact_mod_cast (mul_pos EPSILON_0_pos hv.L0_pos).ne'
  have hd : (s.dl : ℂ) ≠ 0 := by exact_mod_cast hdl.ne'
  rw [uniform_apply s hv hdl hx hy hN e he he0]
  have hst : Spec.stiff s.pol ((MU_0 * s.L0 : ℝ) : ℂ) (((EPSILON_0 * s.L0 : ℝ) : ℂ) * e) ≠ 0 := by
    rcases s.pol
    · exact hM
    · exact mul_ne_zero hE he0
  have hsm := stiff_mul_mass s.pol ((MU_0 * s.L0 : ℝ) : ℂ) (((EPSILON_0 * s.L0 : ℝ) : ℂ) * e)
  unfold Spec.gridDefect
  generalize Spec.stiff s.pol ((MU_0 * s.L0 : ℝ) : ℂ) (((EPSILON_0 * s.L0 : ℝ) : ℂ) * e) = κ at *
  generalize Spec.mass s.pol ((MU_0 * s.L0 : ℝ) : ℂ) (((EPSILON_0 * s.L0 : ℝ) : ℂ) * e) = m at *
  rw [mul_assoc, ← hsm]
  refine flat_ext fun i j => ?_
  rw [Pi.smul_apply, flatten_pair, flatten_pair, smul_eq_mul]
  have h1 := wave_second p i
  have h2 := wave_second r j
  simp only [Spec.planeWave]
  push_cast at h1 h2 ⊢
  field_simp
  linear_combination Spec.wave Ny r j.val * h1 + Spec.wave Nx p i.val * h2

/-- The matrix whose columns are the plane waves. -/
noncomputable def waveMat (Nx Ny : ℕ) : Mat (Nx * Ny) ℂ := fun k l => flatten (Spec.planeWave Nx Ny (l.divNat.val : ℤ) (l.modNat.val : ℤ)) k

theorem pair_div (i : Fin Nx) (j : Fin Ny) : (finProdFinEquiv (i, j)).divNat = i ∧ (finProdFinEquiv (i, j)).modNat = j := by
  have := finProdFinEquiv.symm_apply_apply (i, j)
  exact ⟨congrArg Prod.fst this, congrArg Prod.snd this⟩

theorem waveMat_orth (l l' : Fin (Nx * Ny)) : ∑ k, (starRingEnd ℂ) (waveMat Nx Ny k l) * waveMat Nx Ny k l' = if l = l' then ((Nx : ℂ) * Ny) else 0 := by
  rw [sum_flat]
  have h : ∀ i j, (starRingEnd ℂ) (waveMat Nx Ny (finProdFinEquiv (i, j)) l) * waveMat Nx Ny (finProdFinEquiv (i, j)) l' =
      ((starRingEnd ℂ) (Spec.wave Nx (l.divNat.val : ℤ) i.val) * Spec.wave Nx (l'.divNat.val : ℤ) i.val) *
      ((starRingEnd ℂ) (Spec.wave Ny (l.modNat.val : ℤ) j.val) * Spec.wave Ny (l'.modNat.val : ℤ) j.val) := by
    intro i j
    simp only [waveMat, flatten_pair, Spec.planeWave, map_mul]
    ring
  simp only [h]
  rw [← Finset.sum_mul_sum, wave_sum, wave_sum]
  obtain ⟨⟨a, b⟩, rfl⟩ := finProdFinEquiv.surjective l
  obtain ⟨⟨a', b'⟩, rfl⟩ := finProdFinEquiv.surjective l'
  rw [(pair_div a b).1, (pair_div a b).2, (pair_div a' b').1, (pair_div a' b').2]
  by_cases h1 : a = a' <;> by_cases h2 : b = b' <;> simp [h1, h2]

theorem waveMat_left (hx : 0 < Nx) (hy : 0 < Ny) : ((((Nx : ℂ) * Ny)⁻¹) • (waveMat Nx Ny)ᴴ) * waveMat Nx Ny = 1 := by
  have hN : ((Nx : ℂ) * Ny) ≠ 0 := mul_ne_zero (by exact_mod_cast hx.ne') (by exact_mod_cast hy.ne')
  ext l l'
  rw [Matrix.smul_mul, Matrix.smul_apply, Matrix.mul_apply]
  have := waveMat_orth l l'
  simp only [Matrix.conjTranspose_apply]
  show _ • (∑ k, (starRingEnd ℂ) (waveMat Nx Ny k l) * waveMat Nx Ny k l') = _
  rw [this, Matrix.one_apply, smul_eq_mul]
  split
  · exact inv_mul_cancel₀ hN
  · exact mul_zero _

/-- The eigenvalue of the plane wave with `p` and `r` periods. -/
noncomputable def eigval (s : Sim Nx Ny) (e : ℂ) (p r : ℤ) : ℂ :=
  Spec.gridDefect s.omega s.dl ((MU_0 * s.L0 : ℝ) : ℂ) (((EPSILON_0 * s.L0 : ℝ) : ℂ) * e) Nx Ny p r /
    Spec.stiff s.pol ((MU_0 * s.L0 : ℝ) : ℂ) (((EPSILON_0 * s.L0 : ℝ) : ℂ) * e)

/-- **C92, determinant.** The determinant of the system matrix is the product of the eigenvalues of all plane waves of the grid. -/
theorem C92_det (s : Sim Nx Ny) (hv : s.Valid) (hdl : 0 < s.dl) (hx : 1 < Nx) (hy : 1 < Ny) (hN : s.NPML = (0, 0)) (e : ℂ) (he : ∀ i j, s.eps_r i j = e) (he0 : e ≠ 0) :
    s.A.det = ∏ p : Fin Nx, ∏ r : Fin Ny, Spec.gridDefect s.omega s.dl ((MU_0 * s.L0 : ℝ) : ℂ) (((EPSILON_0 * s.L0 : ℝ) : ℂ) * e) Nx Ny p.val r.val /
        Spec.stiff s.pol ((MU_0 * s.L0 : ℝ) : ℂ) (((EPSILON_0 * s.L0 : ℝ) : ℂ) * e) := by
  have hF := waveMat_left (Nx := Nx) (Ny := Ny) (by omega) (by omega)
  have hdet : (waveMat Nx Ny).det ≠ 0 := by
    intro h
    have := congrArg Matrix.det hF
    rw [Matrix.det_mul, h, mul_zero, Matrix.det_one] at this
    exact zero_ne_one this
  have hAF : s.A * waveMat Nx Ny = waveMat Nx Ny * Matrix.diagonal fun l : Fin (Nx * Ny) => eigval s e l.divNat.val l.modNat.val := by
    ext k l
    rw [Matrix.mul_diagonal]
    have h := congrFun (C92_eigen s hv hdl hx hy hN e he he0 (l.divNat.val : ℤ) (l.modNat.val : ℤ)) k
    rw [mulVec_eq_sum'] at h
    rw [Matrix.mul_apply]
    refine h.trans ?_
    rw [Pi.smul_apply, smul_eq_mul, mul_comm]
    rfl
  have h := congrArg Matrix.det hAF
  rw [Matrix.det_mul, Matrix.det_mul, Matrix.det_diagonal, mul_comm] at h
  rw [mul_left_cancel₀ hdet h, ← Fintype.prod_prod_type', ← finProdFinEquiv.prod_comp]
  refine Finset.prod_congr rfl fun x _ => ?_
  obtain ⟨i, j⟩ := x
  rw [(pair_div i j).1, (pair_div i j).2]
  rfl

/-- **C92, resonances.** The linear system is singular exactly if some plane wave of the grid satisfies the dispersion relation of the grid; a lossy or active medium has no resonances. -/
theorem C92_resonance (s : Sim Nx Ny) (hv : s.Valid) (hdl : 0 < s.dl) (hx : 1 < Nx) (hy : 1 < Ny) (hN : s.NPML = (0, 0)) (e : ℂ) (he : ∀ i j, s.eps_r i j = e) (he0 : e ≠ 0) :
    (s.A.det = 0 ↔ ∃ p r : ℤ, (s.omega : ℂ) ^ 2 * ((MU_0 * s.L0 : ℝ) : ℂ) * (((EPSILON_0 * s.L0 : ℝ) : ℂ) * e) =
      ((4 / s.dl ^ 2 * (Real.sin (Real.pi * p / Nx) ^ 2 + Real.sin (Real.pi * r / Ny) ^ 2) : ℝ) : ℂ)) ∧ (e.im ≠ 0 → s.A.det ≠ 0) := by
  have hM : 0 < MU_0 * s.L0 := mul_pos MU_0_pos hv.L0_pos
  have hE : 0 < EPSILON_0 * s.L0 := mul_pos EPSILON_0_pos hv.L0_pos
  have hM' : ((MU_0 * s.L0 : ℝ) : ℂ) ≠ 0 := by exact_mod_cast hM.ne'
  have hE' : ((EPSILON_0 * s.L0 : ℝ) : ℂ) ≠ 0 := by exact_mod_cast hE.ne'
  have hst : Spec.stiff s.pol ((MU_0 * s.L0 : ℝ) : ℂ) (((EPSILON_0 * s.L0 : ℝ) : ℂ) * e) ≠ 0 := by
    rcases s.pol
    · exact hM'
    · exact mul_ne_zero hE' he0
  have key : s.A.det = 0 ↔ ∃ p r : ℤ, (s.omega : ℂ) ^ 2 * ((MU_0 * s.L0 : ℝ) : ℂ) * (((EPSILON_0 * s.L0 : ℝ) : ℂ) * e) =
      ((4 / s.dl ^ 2 * (Real.sin (Real.pi * p / Nx) ^ 2 + Real.sin (Real.pi * r / Ny) ^ 2) : ℝ) : ℂ) := by
    constructor
    · intro h
      rw [C92_det s hv hdl hx hy hN e he he0, Finset.prod_eq_zero_iff] at h
      obtain ⟨p, -, h⟩ := h
      rw [Finset.prod_eq_zero_iff] at h
      obtain ⟨r, -, h⟩ := h
      rcases div_eq_zero_iff.1 h with h | h
      · exact ⟨p.val, r.val, sub_eq_zero.1 h⟩
      · exact absurd h hst
    · rintro ⟨p, r, h⟩
      by_contra hdet
      have h1 := C92_eigen s hv hdl hx hy hN e he he0 p r
      rw [show Spec.gridDefect s.omega s.dl ((MU_0 * s.L0 : ℝ) : ℂ) (((EPSILON_0 * s.L0 : ℝ) : ℂ) * e) Nx Ny p r = 0 from sub_eq_zero.2 h, zero_div, zero_smul] at h1
      have h2 := Matrix.eq_zero_of_mulVec_eq_zero hdet h1
      have h3 := congrFun h2 (finProdFinEquiv ((⟨0, by omega⟩ : Fin Nx), (⟨0, by omega⟩ : Fin Ny)))
      rw [flatten_pair] at h3
      exact mul_ne_zero (wave_ne _ _ _) (wave_ne _ _ _) h3
  refine ⟨key, fun him hdet => ?_⟩
  obtain ⟨p, r, h⟩ := key.1 hdet
  have h2 := congrArg Complex.im h
  rw [Complex.ofReal_im, ← Complex.ofReal_pow, mul_assoc, Complex.im_ofReal_mul, Complex.im_ofReal_mul, Complex.im_ofReal_mul] at h2
  have ho : s.omega ^ 2 ≠ 0 := (pow_pos hv.omega_pos 2).ne'
  exact mul_ne_zero ho (mul_ne_zero hM.ne' (mul_ne_zero hE.ne' him)) h2

/-- **C92, fields of plane-wave sources.** A source that is a sum of plane waves excites the same waves, each with its own response `iω κ/defect`. -/
theorem C92_solution (env : Env) (hEx : env.Exact) (s : Sim Nx Ny) (hv : s.Valid) (hdl : 0 < s.dl) (hx : 1 < Nx) (hy : 1 < Ny) (hN : s.NPML = (0, 0)) (e : ℂ) (he : ∀ i j, s.eps_r i j = e) (he0 : e ≠ 0)
    (hA : s.A.det ≠ 0) {ι : Type*} (S : Finset ι) (p r : ι → ℤ) (c : ι → ℂ) (hsrc : ∀ i j, s.src i j = ∑ k ∈ S, c k * Spec.planeWave Nx Ny (p k) (r k) i j) :
    ∃ t, (s.solve_fields env).1 = .ok t ∧ ∀ i j, t.2.2 i j = ∑ k ∈ S, c k * (Complex.I * s.omega * Spec.stiff s.pol ((MU_0 * s.L0 : ℝ) : ℂ) (((EPSILON_0 * s.L0 : ℝ) : ℂ) * e) /
      Spec.gridDefect s.omega s.dl ((MU_0 * s.L0 : ℝ) : ℂ) (((EPSILON_0 * s.L0 : ℝ) : ℂ) * e) Nx Ny (p k) (r k)) * Spec.planeWave Nx Ny (p k) (r k) i j := by
  have hdef : ∀ k, Spec.gridDefect s.omega s.dl ((MU_0 * s.L0 : ℝ) : ℂ) (((EPSILON_0 * s.L0 : ℝ) : ℂ) * e) Nx Ny (p k) (r k) ≠ 0 :=
    fun k hk => hA ((C92_resonance s hv hdl hx hy hN e he he0).1.2 ⟨p k, r k, sub_eq_zero.1 hk⟩)
  have hM' : ((MU_0 * s.L0 : ℝ) : ℂ) ≠ 0 := by exact_mod_cast (mul_pos MU_0_pos hv.L0_pos).ne'
  have hE' : ((EPSILON_0 * s.L0 : ℝ) : ℂ) ≠ 0 := by exact_mod_cast (mul_pos EPSILON_0_pos hv.L0_pos).ne'
  have hst : Spec.stiff s.pol ((MU_0 * s.L0 : ℝ) : ℂ) (((EPSILON_0 * s.L0 : ℝ) : ℂ) * e) ≠ 0 := by
    rcases s.pol
    · exact hM'
    · exact mul_ne_zero hE' he0
  have heig := C92_eigen s hv hdl hx hy hN e he he0
  generalize Spec.stiff s.pol ((MU_0 * s.L0 : ℝ) : ℂ) (((EPSILON_0 * s.L0 : ℝ) : ℂ) * e) = κ at *
  obtain ⟨t, ht, hsol⟩ : ∃ t, (s.solve_fields env).1 = .ok t ∧ s.A *ᵥ flatten t.2.2 = s.rhs := by
    refine ⟨_, rfl, ?_⟩
    have h : (s.in_plane false s.eps_r (solver_direct env s.A s.rhs)).2.2 = unflatten (solver_direct env s.A s.rhs) := by
      unfold Sim.in_plane
      cases s.pol <;> rfl
    show s.A *ᵥ flatten (s.in_plane false s.eps_r (solver_direct env s.A s.rhs)).2.2 = s.rhs
    rw [h, flatten_unflatten]
    exact solver_direct_spec hEx (Or.inl hA)
  refine ⟨t, ht, ?_⟩
  have hcand : s.A *ᵥ (∑ k ∈ S, (c k * (Complex.I * s.omega * κ / Spec.gridDefect s.omega s.dl ((MU_0 * s.L0 : ℝ) : ℂ) (((EPSILON_0 * s.L0 : ℝ) : ℂ) * e) Nx Ny (p k) (r k))) •
      flatten (Spec.planeWave Nx Ny (p k) (r k))) = s.rhs := by
    rw [Matrix.mulVec_sum]
    funext q
    rw [Finset.sum_apply]
    show _ = flatten s.src q * Complex.I * s.omega
    have : flatten s.src q = ∑ k ∈ S, c k * flatten (Spec.planeWave Nx Ny (p k) (r k)) q := hsrc _ _
    rw [this, Finset.sum_mul, Finset.sum_mul]
    refine Finset.sum_congr rfl fun k _ => ?_
    rw [Matrix.mulVec_smul, heig, Pi.smul_apply, Pi.smul_apply, smul_eq_mul, smul_eq_mul]
    have := hdef k
    generalize Spec.gridDefect s.omega s.dl ((MU_0 * s.L0 : ℝ) : ℂ) (((EPSILON_0 * s.L0 : ℝ) : ℂ) * e) Nx Ny (p k) (r k) = d at *
    field_simp
  have huniq := mulVec_unique hA (hsol.trans hcand.symm)
  intro i j
  have h := congrFun huniq (finProdFinEquiv (i, j))
  rw [flatten_pair, Finset.sum_apply] at h
  rw [h]
  refine Finset.sum_congr rfl fun k _ => ?_
  rw [Pi.smul_apply, flatten_pair, smul_eq_mul]

/-- **C92, any source.** The fields of any source, by its discrete Fourier coefficients. -/
theorem C92_fourier (env : Env) (hEx : env.Exact) (s : Sim Nx Ny) (hv : s.Valid) (hdl : 0 < s.dl) (hx : 1 < Nx) (hy : 1 < Ny) (hN : s.NPML = (0, 0)) (e : ℂ) (he : ∀ i j, s.eps_r i j = e) (he0 : e ≠ 0)
    (hA : s.A.det ≠ 0) :
    ∃ t, (s.solve_fields env).1 = .ok t ∧ ∀ i j, t.2.2 i j = ∑ k : Fin Nx × Fin Ny,
      ((1 / ((Nx : ℂ) * Ny)) * ∑ a : Fin Nx, ∑ b : Fin Ny, s.src a b * (starRingEnd ℂ) (Spec.planeWave Nx Ny k.1.val k.2.val a b)) *
      (Complex.I * s.omega * Spec.stiff s.pol ((MU_0 * s.L0 : ℝ) : ℂ) (((EPSILON_0 * s.L0 : ℝ) : ℂ) * e) /
        Spec.gridDefect s.omega s.dl ((MU_0 * s.L0 : ℝ) : ℂ) (((EPSILON_0 * s.L0 : ℝ) : ℂ) * e) Nx Ny k.1.val k.2.val) * Spec.planeWave Nx Ny k.1.val k.2.val i j := by
  refine C92_solution env hEx s hv hdl hx hy hN e he he0 hA Finset.univ (fun k : Fin Nx × Fin Ny => (k.1.val : ℤ)) (fun k => (k.2.val : ℤ)) _ ?_
  intro i j
  have hF := mul_eq_one_comm.1 (waveMat_left (Nx := Nx) (Ny := Ny) (by omega) (by omega))
  have h1 : waveMat Nx Ny *ᵥ ((((Nx : ℂ) * Ny)⁻¹ • (waveMat Nx Ny)ᴴ) *ᵥ flatten s.src) = flatten s.src := by
    rw [Matrix.mulVec_mulVec, hF, Matrix.one_mulVec]
  have h2 := congrFun h1 (finProdFinEquiv (i, j))
  rw [flatten_pair, mulVec_eq_sum', ← finProdFinEquiv.sum_comp] at h2
  rw [← h2]
  refine Finset.sum_congr rfl fun k _ => ?_
  obtain ⟨a, b⟩ := k
  rw [mulVec_eq_sum', sum_flat, mul_comm]
  congr 1
  · rw [Finset.mul_sum]
    refine Finset.sum_congr rfl fun i' _ => ?_
    rw [Finset.mul_sum]
    refine Finset.sum_congr rfl fun j' _ => ?_
    rw [Matrix.smul_apply, Matrix.conjTranspose_apply, flatten_pair, smul_eq_mul, one_div]
    show ((Nx : ℂ) * Ny)⁻¹ * (starRingEnd ℂ) (waveMat Nx Ny _ _) * _ = _
    rw [show waveMat Nx Ny (finProdFinEquiv (i', j')) (finProdFinEquiv (a, b)) = Spec.planeWave Nx Ny a.val b.val i' j' by
      unfold waveMat; rw [(pair_div a b).1, (pair_div a b).2, flatten_pair]]
    ring
  · unfold waveMat
    rw [(pair_div a b).1, (pair_div a b).2, flatten_pair]

/-! ## Refining the grid -/

theorem sin_half_bounds (x : ℝ) : 0 ≤ x ^ 2 - 4 * Real.sin (x / 2) ^ 2 ∧ x ^ 2 - 4 * Real.sin (x / 2) ^ 2 ≤ x ^ 4 / 12 := by
  have key : ∀ y : ℝ, 0 ≤ y → Real.sin y ^ 2 ≤ y ^ 2 ∧ y ^ 2 - y ^ 4 / 3 ≤ Real.sin y ^ 2 := by
    intro y hy
    constructor
    · have h1 := Real.sin_le hy
      have h2 := Real.abs_sin_le_one y
      have h3 : -y ≤ Real.sin y := by
        have := Real.sin_le hy
        have h4 := Real.neg_one_le_sin y
        rcases le_or_gt y 1 with h | h
        · exact (neg_nonpos.2 hy).trans (Real.sin_nonneg_of_nonneg_of_le_pi hy (h.trans (by linarith [Real.two_le_pi])))
        · linarith
      exact sq_le_sq' h3 h1
    · rcases hy.eq_or_lt with rfl | hy0
      · simp
      · have h1 := Real.sin_gt_sub_cube hy0
        rcases le_or_gt 0 (y - y ^ 3 / 6) with h | h
        · have h2 := pow_le_pow_left₀ h h1.le 2
          have h3 : (y - y ^ 3 / 6) ^ 2 = y ^ 2 - y ^ 4 / 3 + y ^ 6 / 36 := by ring
          have h4 : 0 ≤ y ^ 6 / 36 := by positivity
          linarith
        · have h2 : 6 < y ^ 2 := by
            by_contra hc
            have : 0 ≤ y * (1 - y ^ 2 / 6) := mul_nonneg hy (by linarith [not_lt.1 hc])
            nlinarith
          have h3 : y ^ 2 - y ^ 4 / 3 = y ^ 2 * (1 - y ^ 2 / 3) := by ring
          have h4 : y ^ 2 * (1 - y ^ 2 / 3) ≤ 0 := mul_nonpos_of_nonneg_of_nonpos (sq_nonneg _) (by linarith)
          linarith [sq_nonneg (Real.sin y)]
  obtain ⟨h1, h2⟩ := key |x / 2| (abs_nonneg _)
  have h3 : Real.sin |x / 2| ^ 2 = Real.sin (x / 2) ^ 2 := by
    rcases abs_choice (x / 2) with h | h
    · rw [h]
    · rw [h, Real.sin_neg, neg_sq]
  have h4 : |x / 2| ^ 4 = (x / 2) ^ 4 := by
    rw [show (4 : ℕ) = 2 * 2 from rfl, pow_mul, pow_mul, sq_abs]
  rw [h3, sq_abs] at h1 h2
  rw [h4] at h2
  constructor
  · linarith
  · have : (x / 2) ^ 4 = x ^ 4 / 16 := by ring
    rw [this] at h2
    linarith

/-- **C92, consistency.** The dispersion relation of the grid is that of the medium up to a term of second order in the grid spacing. -/
theorem C92_consistency (omega h : ℝ) (hh : 0 < h) (mu eps : ℂ) (hx : 0 < Nx) (hy : 0 < Ny) (p r : ℤ) :
    ‖Spec.gridDefect omega h mu eps Nx Ny p r - Spec.defect omega mu eps (Nx * h) (Ny * h) p r‖ ≤
      h ^ 2 / 12 * ((2 * Real.pi * p / (Nx * h)) ^ 4 + (2 * Real.pi * r / (Ny * h)) ^ 4) := by
  have hx' : (Nx : ℝ) ≠ 0 := by exact_mod_cast hx.ne'
  have hy' : (Ny : ℝ) ≠ 0 := by exact_mod_cast hy.ne'
  obtain ⟨a1, a2⟩ := sin_half_bounds (2 * Real.pi * p / Nx)
  obtain ⟨b1, b2⟩ := sin_half_bounds (2 * Real.pi * r / Ny)
  rw [show 2 * Real.pi * p / Nx / 2 = Real.pi * p / Nx by ring] at a1 a2
  rw [show 2 * Real.pi * r / Ny / 2 = Real.pi * r / Ny by ring] at b1 b2
  have h1 : Spec.gridDefect omega h mu eps Nx Ny p r - Spec.defect omega mu eps (Nx * h) (Ny * h) p r =
      ((1 / h ^ 2 * (((2 * Real.pi * p / Nx) ^ 2 - 4 * Real.sin (Real.pi * p / Nx) ^ 2) + ((2 * Real.pi * r / Ny) ^ 2 - 4 * Real.sin (Real.pi * r / Ny) ^ 2)) : ℝ) : ℂ) := by
    unfold Spec.gridDefect Spec.defect
    rw [sub_sub_sub_cancel_left, ← Complex.ofReal_sub]
    congr 1
    field_simp
    ring
  rw [h1, Complex.norm_real, Real.norm_of_nonneg (mul_nonneg (by positivity) (add_nonneg a1 b1))]
  have h2 : h ^ 2 / 12 * ((2 * Real.pi * p / (Nx * h)) ^ 4 + (2 * Real.pi * r / (Ny * h)) ^ 4) = 1 / h ^ 2 * ((2 * Real.pi * p / Nx) ^ 4 / 12 + (2 * Real.pi * r / Ny) ^ 4 / 12) := by
    field_simp
  rw [h2]
  exact mul_le_mul_of_nonneg_left (add_le_add a2 b2) (by positivity)

/-- A sum of plane waves with amplitudes `c` on a periodic domain of size `Lx × Ly`. -/
noncomputable def Spec.trig {ι : Type*} (S : Finset ι) (p r : ι → ℤ) (Lx Ly : ℝ) (c : ι → ℂ) (x y : ℝ) : ℂ :=
  ∑ k ∈ S, c k * Complex.exp (Complex.I * ((2 * Real.pi * p k / Lx * x + 2 * Real.pi * r k / Ly * y : ℝ) : ℂ))

/-- The Helmholtz equation of a uniform medium for the field out of the plane, `∂²F/∂x² + ∂²F/∂y² + ω²με F = iωκ J` (κ = μ for `E_z` and an electric current, κ = ε for `H_z` and a magnetic one). -/
def Spec.Helmholtz (omega : ℝ) (mu eps κ : ℂ) (F J : ℝ → ℝ → ℂ) : Prop :=
  ∃ Fx Fxx Fy Fyy : ℝ → ℝ → ℂ, ∀ x y, HasDerivAt (fun u => F u y) (Fx x y) x ∧ HasDerivAt (fun u => Fx u y) (Fxx x y) x ∧ HasDerivAt (fun u => F x u) (Fy x y) y ∧ HasDerivAt (fun u => Fy x u) (Fyy x y) y ∧
    Fxx x y + Fyy x y + (omega : ℂ) ^ 2 * mu * eps * F x y = Complex.I * omega * κ * J x y

theorem hasDerivAt_phase (a b x : ℝ) : HasDerivAt (fun u : ℝ => Complex.exp (Complex.I * ((a * u + b : ℝ) : ℂ))) (Complex.I * a * Complex.exp (Complex.I * ((a * x + b : ℝ) : ℂ))) x := by
  have h1 : HasDerivAt (fun u : ℝ => ((a * u + b : ℝ) : ℂ)) (a : ℂ) x := by
    have h := ((hasDerivAt_id x).const_mul a).add_const b
    exact (h.congr_deriv (mul_one a)).ofReal_comp
  exact ((h1.const_mul Complex.I).cexp).congr_deriv (by ring)

theorem trig_hasDerivAt_x {ι : Type*} (S : Finset ι) (p r : ι → ℤ) (Lx Ly : ℝ) (c : ι → ℂ) (x y : ℝ) :
    HasDerivAt (fun u => Spec.trig S p r Lx Ly c u y) (Spec.trig S p r Lx Ly (fun k => c k * (Complex.I * ((2 * Real.pi * p k / Lx : ℝ) : ℂ))) x y) x := by
  unfold Spec.trig
  refine (HasDerivAt.fun_sum fun k _ => (hasDerivAt_phase (2 * Real.pi * p k / Lx) (2 * Real.pi * r k / Ly * y) x).const_mul (c k)).congr_deriv ?_
  refine Finset.sum_congr rfl fun k _ => ?_
  beta_reduce
  ring

theorem trig_hasDerivAt_y {ι : Type*} (S : Finset ι) (p r : ι → ℤ) (Lx Ly : ℝ) (c : ι → ℂ) (x y : ℝ) :
    HasDerivAt (fun u => Spec.trig S p r Lx Ly c x u) (Spec.trig S p r Lx Ly (fun k => c k * (Complex.I * ((2 * Real.pi * r k / Ly : ℝ) : ℂ))) x y) y := by
  unfold Spec.trig
  have h : ∀ k, HasDerivAt (fun u : ℝ => c k * Complex.exp (Complex.I * ((2 * Real.pi * p k / Lx * x + 2 * Real.pi * r k / Ly * u : ℝ) : ℂ)))
      (c k * (Complex.I * ((2 * Real.pi * r k / Ly : ℝ) : ℂ)) * Complex.exp (Complex.I * ((2 * Real.pi * p k / Lx * x + 2 * Real.pi * r k / Ly * y : ℝ) : ℂ))) y := by
    intro k
    have := (hasDerivAt_phase (2 * Real.pi * r k / Ly) (2 * Real.pi * p k / Lx * x) y).const_mul (c k)
    simp only [add_comm (2 * Real.pi * r k / Ly * _)] at this
    exact this.congr_deriv (by ring)
  exact HasDerivAt.fun_sum fun k _ => h k

/-- The response of the medium to a sum of plane waves. -/
noncomputable def Spec.response (omega : ℝ) (mu eps κ : ℂ) {ι : Type*} (p r : ι → ℤ) (Lx Ly : ℝ) (c : ι → ℂ) (k : ι) : ℂ :=
  c k * (Complex.I * omega * κ / Spec.defect omega mu eps Lx Ly (p k) (r k))

/-- **C92, the continuum.** Away from resonance, a current that is a sum of plane waves drives the field with the amplitudes `iωκ c/(ω²με - kx² - ky²)`: it solves the Helmholtz equation. -/
theorem C92_continuum (omega : ℝ) (mu eps κ : ℂ) {ι : Type*} (S : Finset ι) (p r : ι → ℤ) (Lx Ly : ℝ) (c : ι → ℂ) (hd : ∀ k ∈ S, Spec.defect omega mu eps Lx Ly (p k) (r k) ≠ 0) :
    Spec.Helmholtz omega mu eps κ (Spec.trig S p r Lx Ly (Spec.response omega mu eps κ p r Lx Ly c)) (Spec.trig S p r Lx Ly c) := by
  refine ⟨_, _, _, _, fun x y => ⟨trig_hasDerivAt_x _ _ _ _ _ _ _ _, trig_hasDerivAt_x _ _ _ _ _ _ _ _, trig_hasDerivAt_y _ _ _ _ _ _ _ _, trig_hasDerivAt_y _ _ _ _ _ _ _ _, ?_⟩⟩
  simp only [Spec.trig, Finset.mul_sum]
  rw [← Finset.sum_add_distrib, ← Finset.sum_add_distrib]
  refine Finset.sum_congr rfl fun k hk => ?_
  have h1 := hd k hk
  have hI := Complex.I_mul_I
  have h2 : Spec.response omega mu eps κ p r Lx Ly c k * Spec.defect omega mu eps Lx Ly (p k) (r k) = c k * (Complex.I * omega * κ) := by
    unfold Spec.response
    rw [mul_assoc, div_mul_cancel₀ _ h1]
  unfold Spec.defect at h2
  generalize Spec.response omega mu eps κ p r Lx Ly c k = R at *
  generalize Complex.exp (Complex.I * ((2 * Real.pi * p k / Lx * x + 2 * Real.pi * r k / Ly * y : ℝ) : ℂ)) = E at *
  push_cast at h2 ⊢
  linear_combination E * h2 + R * E * ((2 * Real.pi * p k / Lx) ^ 2 + (2 * Real.pi * r k / Ly) ^ 2) * hI

/-- **C92, convergence.** A band-limited current on a periodic domain of size `Lx × Ly`, sampled on a grid with spacing `h`: the field returned by `solve_fields` is the solution of the Helmholtz equation of the
medium at the grid points up to an error bounded by `h²` times a number that does not depend on the grid, once the grid resolves the waves of the current. -/
theorem C92_convergence (env : Env) (hEx : env.Exact) (s : Sim Nx Ny) (hv : s.Valid) (hdl : 0 < s.dl) (hx : 1 < Nx) (hy : 1 < Ny) (hN : s.NPML = (0, 0)) (e : ℂ) (he : ∀ i j, s.eps_r i j = e) (he0 : e ≠ 0)
    (hA : s.A.det ≠ 0) {ι : Type*} (S : Finset ι) (p r : ι → ℤ) (c : ι → ℂ) (Lx Ly : ℝ) (hLx : Lx = Nx * s.dl) (hLy : Ly = Ny * s.dl) (mu eps κ : ℂ)
    (hmu : mu = ((MU_0 * s.L0 : ℝ) : ℂ)) (heps : eps = ((EPSILON_0 * s.L0 : ℝ) : ℂ) * e) (hκ : κ = match s.pol with | .Ez => mu | .Hz => eps)
    (hsrc : ∀ (i : Fin Nx) (j : Fin Ny), s.src i j = Spec.trig S p r Lx Ly c (i.val * s.dl) (j.val * s.dl)) (δ : ℝ) (hδ : 0 < δ) (hd : ∀ k ∈ S, δ ≤ ‖Spec.defect s.omega mu eps Lx Ly (p k) (r k)‖)
    (hfine : ∀ k ∈ S, s.dl ^ 2 / 12 * ((2 * Real.pi * p k / Lx) ^ 4 + (2 * Real.pi * r k / Ly) ^ 4) ≤ δ / 2) :
    ∃ t, (s.solve_fields env).1 = .ok t ∧ ∀ (i : Fin Nx) (j : Fin Ny),
      ‖t.2.2 i j - Spec.trig S p r Lx Ly (Spec.response s.omega mu eps κ p r Lx Ly c) (i.val * s.dl) (j.val * s.dl)‖ ≤
        s.dl ^ 2 * (s.omega * ‖κ‖ / (6 * δ ^ 2) * ∑ k ∈ S, ‖c k‖ * ((2 * Real.pi * p k / Lx) ^ 4 + (2 * Real.pi * r k / Ly) ^ 4)) := by
  have hx' : (Nx : ℝ) ≠ 0 := by exact_mod_cast (by omega : Nx ≠ 0)
  have hy' : (Ny : ℝ) ≠ 0 := by exact_mod_cast (by omega : Ny ≠ 0)
  have hpw : ∀ (k : ι) (i : Fin Nx) (j : Fin Ny), Complex.exp (Complex.I * ((2 * Real.pi * p k / Lx * (i.val * s.dl) + 2 * Real.pi * r k / Ly * (j.val * s.dl) : ℝ) : ℂ)) = Spec.planeWave Nx Ny (p k) (r k) i j := by
    intro k i j
    unfold Spec.planeWave Spec.wave
    rw [← Complex.exp_add]
    congr 1
    have h1 : 2 * Real.pi * p k / Lx * (i.val * s.dl) + 2 * Real.pi * r k / Ly * (j.val * s.dl) = 2 * Real.pi * p k * i.val / Nx + 2 * Real.pi * r k * j.val / Ny := by
      have := hdl.ne'
      rw [hLx, hLy]
      field_simp
    rw [h1]
    push_cast
    ring
  have hκ' : κ = Spec.stiff s.pol mu eps := by
    rw [hκ]
    rcases s.pol <;> rfl
  obtain ⟨t, ht, hsol⟩ := C92_solution env hEx s hv hdl hx hy hN e he he0 hA S p r c (fun i j => by rw [hsrc]; unfold Spec.trig; exact Finset.sum_congr rfl fun k _ => by rw [hpw])
  refine ⟨t, ht, fun i j => ?_⟩
  rw [hsol i j, ← hmu, ← heps, ← hκ']
  unfold Spec.trig
  rw [← Finset.sum_sub_distrib, Finset.mul_sum, Finset.mul_sum]
  refine (norm_sum_le _ _).trans (Finset.sum_le_sum fun k hk => ?_)
  rw [hpw]
  unfold Spec.response
  rw [← sub_mul, norm_mul]
  have hu : ‖Spec.planeWave Nx Ny (p k) (r k) i j‖ = 1 := by
    rw [← hpw, mul_comm, Complex.norm_exp_ofReal_mul_I]
  rw [hu, mul_one, ← mul_sub, norm_mul]
  have hcons := C92_consistency (Nx := Nx) (Ny := Ny) s.omega s.dl hdl mu eps (by omega) (by omega) (p k) (r k)
  rw [← hLx, ← hLy] at hcons
  have hq := hfine k hk
  have hD := hd k hk
  have hD0 : Spec.defect s.omega mu eps Lx Ly (p k) (r k) ≠ 0 := norm_pos_iff.1 (hδ.trans_le hD)
  have hG : δ / 2 ≤ ‖Spec.gridDefect s.omega s.dl mu eps Nx Ny (p k) (r k)‖ := by
    have h1 := norm_sub_norm_le (Spec.defect s.omega mu eps Lx Ly (p k) (r k)) (Spec.defect s.omega mu eps Lx Ly (p k) (r k) - Spec.gridDefect s.omega s.dl mu eps Nx Ny (p k) (r k))
    rw [sub_sub_cancel, norm_sub_rev (Spec.defect _ _ _ _ _ _ _)] at h1
    linarith
  have hG0 : Spec.gridDefect s.omega s.dl mu eps Nx Ny (p k) (r k) ≠ 0 := norm_pos_iff.1 ((half_pos hδ).trans_le hG)
  generalize Spec.gridDefect s.omega s.dl mu eps Nx Ny (p k) (r k) = G at *
  generalize Spec.defect s.omega mu eps Lx Ly (p k) (r k) = D at *
  generalize (2 * Real.pi * p k / Lx) ^ 4 + (2 * Real.pi * r k / Ly) ^ 4 = K at *
  have hid : Complex.I * s.omega * κ / G - Complex.I * s.omega * κ / D = -(Complex.I * s.omega * κ * (G - D)) / (G * D) := by
    field_simp
    ring
  rw [hid, norm_div, norm_neg, norm_mul, norm_mul, norm_mul, norm_mul, Complex.norm_I, one_mul, Complex.norm_real, Real.norm_of_nonneg hv.omega_pos.le]
  have hGD : δ ^ 2 / 2 ≤ ‖G‖ * ‖D‖ := by
    have := mul_le_mul hG hD hδ.le (norm_nonneg _)
    linarith [this, (by ring : δ / 2 * δ = δ ^ 2 / 2)]
  have hnum : s.omega * ‖κ‖ * ‖G - D‖ ≤ s.omega * ‖κ‖ * (s.dl ^ 2 / 12 * K) := mul_le_mul_of_nonneg_left hcons (mul_nonneg hv.omega_pos.le (norm_nonneg _))
  have hnn : 0 ≤ s.omega * ‖κ‖ * (s.dl ^ 2 / 12 * K) := (mul_nonneg (mul_nonneg hv.omega_pos.le (norm_nonneg _)) (norm_nonneg _)).trans hnum
  have hfrac : s.omega * ‖κ‖ * ‖G - D‖ / (‖G‖ * ‖D‖) ≤ s.omega * ‖κ‖ * (s.dl ^ 2 / 12 * K) / (δ ^ 2 / 2) :=
    div_le_div₀ hnn hnum (by positivity) hGD
  refine (mul_le_mul_of_nonneg_left hfrac (norm_nonneg _)).trans (le_of_eq ?_)
  field_simp
  ring

/-! ## Concrete cases -/

/-- A resonance: on two by two cells with `ω² μ ε h² = 4` the wave that alternates along `x` needs no source, and the system is singular; with a small loss it is not. -/
example (src : Grid 2 2 ℂ) : (fsim 0 (fun _ _ => 4 / 9) src).A.det = 0 ∧ (fsim 0 (fun _ _ => 4 / 9 + Complex.I / 100) src).A.det ≠ 0 := by
  have hη : (ETA_0 : ℂ) ≠ 0 := by exact_mod_cast ETA_0_pos.ne'
  constructor
  · refine (C92_resonance (fsim 0 (fun _ _ => 4 / 9) src) (fsim_valid _ _ _) (fsim_dl_pos _ _ _) (by norm_num) (by norm_num) rfl (4 / 9) (fun _ _ => rfl) (by norm_num)).1.2 ⟨1, 0, ?_⟩
    show ((1 : ℝ) : ℂ) ^ 2 * ((MU_0 * (1 / EPSILON_0) : ℝ) : ℂ) * (((EPSILON_0 * (1 / EPSILON_0) : ℝ) : ℂ) * (4 / 9)) =
      ((4 / (3 / ETA_0) ^ 2 * (Real.sin (Real.pi * (1 : ℤ) / (2 : ℕ)) ^ 2 + Real.sin (Real.pi * (0 : ℤ) / (2 : ℕ)) ^ 2) : ℝ) : ℂ)
    rw [mu0_norm, eps0_norm]
    simp only [Int.cast_one, mul_one, Nat.cast_ofNat, Real.sin_pi_div_two, Int.cast_zero, mul_zero, zero_div, Real.sin_zero]
    push_cast
    field_simp
    norm_num
  · refine (C92_resonance (fsim 0 (fun _ _ => 4 / 9 + Complex.I / 100) src) (fsim_valid _ _ _) (fsim_dl_pos _ _ _) (by norm_num) (by norm_num) rfl (4 / 9 + Complex.I / 100) (fun _ _ => rfl) ?_).2 ?_
    · intro h
      have := congrArg Complex.im h
      norm_num at this
    · norm_num

/-- A current with one period on ten by ten cells, and the error bound for its field. -/
example (env : Env) (hEx : env.Exact) : ∃ t, ((fsim (Nx := 10) (Ny := 10) 0 (fun _ _ => 1)
      (fun i j => Spec.trig {()} (fun _ => 1) (fun _ => 0) (((10 : ℕ) : ℝ) * (3 / ETA_0)) (((10 : ℕ) : ℝ) * (3 / ETA_0)) (fun _ => 1) (i.val * (3 / ETA_0)) (j.val * (3 / ETA_0)))).solve_fields env).1 = .ok t ∧
    ∀ i j, ‖t.2.2 i j - Spec.trig {()} (fun _ => 1) (fun _ => 0) (((10 : ℕ) : ℝ) * (3 / ETA_0)) (((10 : ℕ) : ℝ) * (3 / ETA_0))
      (Spec.response 1 ((MU_0 * (1 / EPSILON_0) : ℝ) : ℂ) (((EPSILON_0 * (1 / EPSILON_0) : ℝ) : ℂ) * 1) ((MU_0 * (1 / EPSILON_0) : ℝ) : ℂ) (fun _ => 1) (fun _ => 0)
        (((10 : ℕ) : ℝ) * (3 / ETA_0)) (((10 : ℕ) : ℝ) * (3 / ETA_0)) fun _ => 1) (i.val * (3 / ETA_0)) (j.val * (3 / ETA_0))‖ ≤ (3 / ETA_0) ^ 2 * (2 / 3 * (Real.pi / 15) ^ 4 * ETA_0 ^ 2) := by
  have hη := ETA_0_pos
  have hpi := Real.pi_le_four
  have hpi0 := Real.pi_pos
  have hk : (2 * Real.pi * ((1 : ℤ) : ℝ) / (((10 : ℕ) : ℝ) * (3 / ETA_0))) = Real.pi / 15 * ETA_0 := by
    push_cast
    field_simp
    norm_num
  have hk0 : (2 * Real.pi * ((0 : ℤ) : ℝ) / (((10 : ℕ) : ℝ) * (3 / ETA_0))) = 0 := by simp
  have hp2 : (Real.pi / 15) ^ 2 ≤ 16 / 225 := by nlinarith
  obtain ⟨t, ht, h⟩ := C92_convergence env hEx (fsim (Nx := 10) (Ny := 10) 0 (fun _ _ => 1)
      (fun i j => Spec.trig {()} (fun _ => 1) (fun _ => 0) (((10 : ℕ) : ℝ) * (3 / ETA_0)) (((10 : ℕ) : ℝ) * (3 / ETA_0)) (fun _ => 1) (i.val * (3 / ETA_0)) (j.val * (3 / ETA_0))))
    (fsim_valid _ _ _) (fsim_dl_pos _ _ _) (by norm_num) (by norm_num) rfl 1 (fun _ _ => rfl) one_ne_zero (fsim_det (by norm_num) (by norm_num) 0 _ _ (by simp)) {()} (fun _ => 1) (fun _ => 0) (fun _ => 1)
    _ _ rfl rfl _ _ _ rfl rfl rfl (fun _ _ => rfl) (ETA_0 ^ 2 / 2) (by positivity) (by
      intro k _
      show _ ≤ ‖((1 : ℝ) : ℂ) ^ 2 * ((MU_0 * (1 / EPSILON_0) : ℝ) : ℂ) * (((EPSILON_0 * (1 / EPSILON_0) : ℝ) : ℂ) * 1) -
        (((2 * Real.pi * ((1 : ℤ) : ℝ) / (((10 : ℕ) : ℝ) * (3 / ETA_0))) ^ 2 + (2 * Real.pi * ((0 : ℤ) : ℝ) / (((10 : ℕ) : ℝ) * (3 / ETA_0))) ^ 2 : ℝ) : ℂ)‖
      rw [mu0_norm, eps0_norm, hk, hk0, show ((1 : ℝ) : ℂ) ^ 2 * ((ETA_0 ^ 2 : ℝ) : ℂ) * (((1 : ℝ) : ℂ) * 1) - (((Real.pi / 15 * ETA_0) ^ 2 + 0 ^ 2 : ℝ) : ℂ) = ((ETA_0 ^ 2 * (1 - (Real.pi / 15) ^ 2) : ℝ) : ℂ) by
        push_cast; ring, Complex.norm_real, Real.norm_eq_abs]
      refine le_trans ?_ (le_abs_self _)
      have := mul_le_mul_of_nonneg_left (by linarith : (1 / 2 : ℝ) ≤ 1 - (Real.pi / 15) ^ 2) (sq_nonneg ETA_0)
      linarith) (by
      intro k _
      show (3 / ETA_0) ^ 2 / 12 * ((2 * Real.pi * ((1 : ℤ) : ℝ) / (((10 : ℕ) : ℝ) * (3 / ETA_0))) ^ 4 + (2 * Real.pi * ((0 : ℤ) : ℝ) / (((10 : ℕ) : ℝ) * (3 / ETA_0))) ^ 4) ≤ ETA_0 ^ 2 / 2 / 2
      rw [hk, hk0]
      have h1 : (3 / ETA_0) ^ 2 / 12 * ((Real.pi / 15 * ETA_0) ^ 4 + 0 ^ 4) = ETA_0 ^ 2 * (3 / 4 * ((Real.pi / 15) ^ 2) ^ 2) := by
        field_simp
        ring
      rw [h1]
      have h2 : ((Real.pi / 15) ^ 2) ^ 2 ≤ (16 / 225) ^ 2 := pow_le_pow_left₀ (sq_nonneg _) hp2 2
      have := mul_le_mul_of_nonneg_left (by linarith : (3 / 4 * ((Real.pi / 15) ^ 2) ^ 2 : ℝ) ≤ 1 / 4) (sq_nonneg ETA_0)
      linarith)
  refine ⟨t, ht, fun i j => (h i j).trans (le_of_eq ?_)⟩
  show (3 / ETA_0) ^ 2 * (1 * ‖((MU_0 * (1 / EPSILON_0) : ℝ) : ℂ)‖ / (6 * (ETA_0 ^ 2 / 2) ^ 2) * ∑ k ∈ ({()} : Finset Unit), ‖(1 : ℂ)‖ *
    ((2 * Real.pi * ((1 : ℤ) : ℝ) / (((10 : ℕ) : ℝ) * (3 / ETA_0))) ^ 4 + (2 * Real.pi * ((0 : ℤ) : ℝ) / (((10 : ℕ) : ℝ) * (3 / ETA_0))) ^ 4)) = _
  rw [Finset.sum_singleton, hk, hk0, mu0_norm, Complex.norm_real, Real.norm_of_nonneg (sq_nonneg _), norm_one]
  field_simp
  ring

end Angler
