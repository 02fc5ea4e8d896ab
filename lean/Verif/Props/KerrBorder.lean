import Verif.Props.GradientBorder

/-! # C31: the Kerr gradient is wrong at the border of the filter as well -/

namespace Angler

open Matrix Filter Topology

variable {Nx Ny : ℕ}

/-- Where Newton's system is regular, the linearised Kerr equation has no further solution. -/
theorem kerrRegular_of_jac (s : Sim Nx Ny) (E : Grid Nx Ny ℂ) (hreal : ∀ i j, (Spec.kerrSum s.nonlinearity s.eps_r i j).im = 0) (h : Spec.JacRegular s E) : Spec.KerrRegular s E := by
  intro v hv
  rw [Spec.JacRegular, Areal_det_ne_zero_iff] at h
  refine flatten_eq_zero.1 (h (flatten v) (flat_ext fun i j => ?_))
  have h0 := hv i j
  show ((nl_eq_and_jac s E).1.2.1 *ᵥ flatten v) (finProdFinEquiv (i, j)) + ((nl_eq_and_jac s E).1.2.2 *ᵥ flatten fun i j => (starRingEnd ℂ) (v i j)) (finProdFinEquiv (i, j)) = 0
  rw [nl_jac11, nl_jac12, Complex.conj_eq_iff_im.2 (hreal i j), ← h0]
  ring

theorem cksim_kerrRegular (hx : 1 < Nx) (hy : 1 < Ny) (P : ℕ) (chi : ℝ) (hchi : 0 ≤ chi) (eps src : Grid Nx Ny ℂ) (he : ∀ i j, 1 ≤ (eps i j).re) (E : Grid Nx Ny ℂ) :
    Spec.KerrRegular (cksim P chi eps src) E := by
  refine kerrRegular_of_jac _ _ (fun i j => ?_) ((cksim_regular hx hy P chi hchi eps src he).2.2 E)
  simp [cksim, Spec.kerrSum, Spec.kerrCoef]

/-- An optimisation of a Kerr device in vacuum (density 0) whose nonlinear field is `E0`. -/
noncomputable def bopt (P : ℕ) (src E0 : Grid Nx Ny ℂ) (J : ObjFn Nx Ny) (design : Grid Nx Ny ℝ) (W : Mat (Nx * Ny) ℝ) : Opt Nx Ny where
  objective := Objective.mk' J [⟨.Ez, true, .kerr_Ez⟩]
  simulation := { (cksim P 1 (fun _ _ => 1) src).compute_nl E0 with fields_nl := fun c => if c = .Ez then some E0 else none, rho := some (some fun _ _ => 0) }
  design_region := design
  W := W
  eps_m := 5
  eta := 1 / 2
  beta := 1
  max_ind_shift := none
  src_amplitudes := []
  objfn_list := []
  fields_current := true
  field_arg_list := some [E0]

theorem bopt_valid (P : ℕ) (src E0 : Grid Nx Ny ℂ) (J : ObjFn Nx Ny) (design : Grid Nx Ny ℝ) (W : Mat (Nx * Ny) ℝ) : (bopt P src E0 J design W).simulation.Valid :=
  ⟨(fsim_valid P (fun _ _ => 1) src).L0_pos, (fsim_valid P (fun _ _ => 1) src).omega_pos, rfl, rfl, rfl, (fsim_valid P (fun _ _ => 1) src).derivs_eq⟩

theorem bopt_setup (env : Env) (hx : 1 < Nx) (hy : 1 < Ny) (P : ℕ) (src E0 : Grid Nx Ny ℂ) (p : Grid Nx Ny ℂ) (design : Grid Nx Ny ℝ) (W : Mat (Nx * Ny) ℝ)
    (hE : bornMat (cksim P 1 (fun _ _ => 1) src) E0 *ᵥ flatten E0 = (cksim P 1 (fun _ _ => 1) src).rhs) :
    Spec.KerrEz env (bopt P src E0 (linearJ p) design W) (linearJ p) [⟨.Ez, true, .kerr_Ez⟩] (fun _ _ => 0) E0 where
  obj := rfl
  kinds := fun a ha => Or.inr (by rw [List.mem_singleton] at ha; rw [ha]; rfl)
  nonempty := by simp
  valid := bopt_valid P src E0 _ design W
  pol := rfl
  density := rfl
  eps := by
    show (fun _ _ => (1 : ℂ)) = fun i j => ((rho2eps (fun _ _ => 0) 5 W (1 / 2) 1 i j : ℝ) : ℂ)
    rw [rho2eps_zero]
    simp
  beta := one_ne_zero
  current := rfl
  linear := by
    rintro c - ⟨a, ha, h⟩
    rw [List.mem_singleton] at ha
    rw [ha] at h
    cases h
  nonlinear := rfl
  anl := rfl
  dnl := rfl
  collected := ⟨_, rfl, rfl⟩
  det := by
    rintro ⟨a, ha, h⟩
    rw [List.mem_singleton] at ha
    rw [ha] at h
    cases h
  exact := by
    rw [kerrMaxwellEz_iff _ (bopt_valid P src E0 _ design W) rfl]
    exact hE
  regular := cksim_kerrRegular hx hy P 1 zero_le_one (fun _ _ => 1) src (fun _ _ => by simp) E0
  autograd := fun x _ => linearJ_autograd p x

/-- If row `(i0, j0)` of the filter vanishes but the pixel has influence on `(i1, j1)`, the Kerr gradient at `(i0, j0)` is wrong for some source and some objective. -/
theorem border_witness_kerr (env : Env) (hx : 1 < Nx) (hy : 1 < Ny) (P : ℕ) (design : Grid Nx Ny ℝ) (W : Mat (Nx * Ny) ℝ) (i0 i1 : Fin Nx) (j0 j1 : Fin Ny)
    (hrow : ∀ i j, W (finProdFinEquiv (i0, j0)) (finProdFinEquiv (i, j)) = 0) (hne : W (finProdFinEquiv (i1, j1)) (finProdFinEquiv (i0, j0)) ≠ 0) :
    ∃ (J : ObjFn Nx Ny) (src : Grid Nx Ny ℂ) (E0 : Grid Nx Ny ℂ),
      let o := bopt P src E0 J design W
      Spec.KerrEz env o J [⟨.Ez, true, .kerr_Ez⟩] (fun _ _ => 0) E0 ∧
      ∃ g E f', (Opt.compute_dJ env o).1 = .ok g ∧ Spec.KerrBranch o (fun _ _ => 0) E0 i0 j0 E ∧ HasDerivAt (fun t => J.eval fun _ => E t) f' 0 ∧ g i0 j0 = 0 ∧ f' ≠ 0 := by
  let E0 : Grid Nx Ny ℂ := Spec.single i1 j1
  let src : Grid Nx Ny ℂ := unflatten fun k => (bornMat (cksim P 1 (fun _ _ => 1) (fun _ _ => 0)) E0 *ᵥ flatten E0) k / Complex.I
  have hE : bornMat (cksim P 1 (fun _ _ => 1) src) E0 *ᵥ flatten E0 = (cksim P 1 (fun _ _ => 1) src).rhs := by
    funext k
    show (bornMat (cksim P 1 (fun _ _ => 1) (fun _ _ => 0)) E0 *ᵥ flatten E0) k = flatten src k * Complex.I * ((1 : ℝ) : ℂ)
    rw [show (flatten src : Vec (Nx * Ny) ℂ) = fun k => (bornMat (cksim P 1 (fun _ _ => 1) (fun _ _ => 0)) E0 *ᵥ flatten E0) k / Complex.I from flatten_unflatten _,
      div_mul_cancel₀ _ Complex.I_ne_zero]
    simp
  have hS0 := bopt_setup env hx hy P src E0 0 design W hE
  obtain ⟨⟨E, hE0, hEc, hEb⟩, hdiff⟩ := kerr_branch _ hS0.valid hS0.pol _ hS0.eps hS0.beta E0 hS0.exact hS0.regular i0 j0
  obtain ⟨E', hE', hlin⟩ := hdiff E hE0 hEc hEb
  have hE'0 : E' ≠ 0 := by
    intro h0
    have h1 := hlin i1 j1
    rw [h0] at h1
    rw [show (flatten (0 : Grid Nx Ny ℂ) : Vec (Nx * Ny) ℂ) = 0 from rfl, Matrix.mulVec_zero] at h1
    simp only [Pi.zero_apply, mul_zero, map_zero, add_zero] at h1
    have hd : (((bopt P src E0 (linearJ 0) design W).simulation).compute_nl E0).dnl_deps i1 j1 = 0 := by
      simp [bopt, Sim.compute_nl, cksim, Nonlinearity.dnl_deps]
    rw [hd, add_zero, one_mul] at h1
    have h2 : ((((bopt P src E0 (linearJ 0) design W).simulation).omega ^ 2 * EPSILON_0 * ((bopt P src E0 (linearJ 0) design W).simulation).L0 : ℝ) : ℂ) ≠ 0 := by
      have := mul_pos (mul_pos (pow_pos hS0.valid.omega_pos 2) EPSILON_0_pos) hS0.valid.L0_pos
      exact_mod_cast this.ne'
    have h3 : dEps (bopt P src E0 (linearJ 0) design W) (fun _ _ => 0) i0 j0 i1 j1 ≠ 0 := by
      unfold dEps
      rw [Complex.ofReal_ne_zero]
      exact mul_ne_zero (mul_ne_zero (by show (5 : ℝ) - 1 ≠ 0; norm_num) (drhob_drhot_pos _).ne') hne
    have h4 : E0 i1 j1 = 1 := if_pos ⟨rfl, rfl⟩
    rw [h4, mul_one] at h1
    exact mul_ne_zero h2 h3 (neg_eq_zero.1 h1.symm)
  let p : Grid Nx Ny ℂ := fun i j => (starRingEnd ℂ) (E' i j)
  have hS := bopt_setup env hx hy P src E0 p design W hE
  obtain ⟨hlen, hg⟩ := kerr_compute_dJ env _ _ _ _ _ hS
  refine ⟨linearJ p, src, E0, hS, _, E, ∑ i, ∑ j, Complex.normSq (E' i j), hg, ⟨hE0, hEc, hEb⟩, ?_, ?_, ?_⟩
  · obtain ⟨L, hL, hJ⟩ := linearJ_autograd p fun _ => E 0
    refine (hJ.comp_hasDerivAt (0 : ℝ) (f := fun t _ => E t) (f' := fun _ => E') (hasDerivAt_pi.2 fun _ => hE')).congr_deriv ?_
    rw [hL]
    show ∑ k : Fin 1, ∑ i, ∑ j, (p i j * E' i j).re = _
    rw [Fin.sum_univ_one]
    refine Finset.sum_congr rfl fun i _ => Finset.sum_congr rfl fun j _ => ?_
    rw [← Complex.normSq_eq_conj_mul_self, Complex.ofReal_re]
  · refine Finset.sum_eq_zero fun k _ => ?_
    have hnl : (([⟨.Ez, true, .kerr_Ez⟩] : List ObjArg).get (k.cast hlen.symm)).nl = true := by
      have : ∀ q : Fin ([⟨.Ez, true, .kerr_Ez⟩] : List ObjArg).length, (([⟨.Ez, true, .kerr_Ez⟩] : List ObjArg).get q).nl = true := by
        intro q
        obtain rfl : q = 0 := Subsingleton.elim (α := Fin 1) _ _
        rfl
      exact this _
    unfold argGrad
    rw [if_pos hnl, tail_kerr_apply]
    have : ∀ i j, (bopt P src E0 (linearJ p) design W).W (finProdFinEquiv (i0, j0)) (finProdFinEquiv (i, j)) = 0 := hrow
    simp only [this, zero_mul, mul_zero, Complex.ofReal_zero, Finset.sum_const_zero, Complex.zero_re]
  · intro h0
    apply hE'0
    funext i j
    have h1 := (Finset.sum_eq_zero_iff_of_nonneg (fun i _ => Finset.sum_nonneg fun j _ => Complex.normSq_nonneg (E' i j))).1 h0 i (Finset.mem_univ _)
    have h2 := (Finset.sum_eq_zero_iff_of_nonneg (fun j _ => Complex.normSq_nonneg (E' i j))).1 h1 j (Finset.mem_univ _)
    exact Complex.normSq_eq_zero.1 h2

/-- **C31 is false near the border of the filtered area**: the situation of `C29_false_near_border`, for a Kerr device at an exact regular solution. -/
theorem C31_false_near_border (env : Env) : ∃ (W : Mat (9 * 9) ℝ) (J : ObjFn 9 9) (src E0 : Grid 9 9 ℂ), get_W 9 9 (fun _ _ => 1) (1, 1) 2 = .ok W ∧
      let o := bopt 1 src E0 J (fun _ _ => 1) W
      Spec.KerrEz env o J [⟨.Ez, true, .kerr_Ez⟩] (fun _ _ => 0) E0 ∧
      ∃ g E f', (Opt.compute_dJ env o).1 = .ok g ∧ Spec.KerrBranch o (fun _ _ => 0) E0 4 3 E ∧ HasDerivAt (fun t => J.eval fun _ => E t) f' 0 ∧ g 4 3 = 0 ∧ f' ≠ 0 := by
  obtain ⟨W, hW, hrow, hne⟩ := border_filter
  obtain ⟨J, src, E0, h⟩ := border_witness_kerr env (Nx := 9) (Ny := 9) (by norm_num) (by norm_num) 1 (fun _ _ => 1) W 4 4 3 4 hrow hne
  exact ⟨W, J, src, E0, hW, h⟩

end Angler
