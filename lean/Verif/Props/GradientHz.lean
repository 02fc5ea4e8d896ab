import Verif.Lemmas.GradientHz
import Verif.Lemmas.WellPosedHz
import Verif.Props.GradientEz

/-! # C32: the adjoint gradient of objectives of the linear Hz field -/

namespace Angler

open Matrix

variable {Nx Ny : ℕ}

/-- At pixel `(i, j)` the material is locally uniform, the field `H` is locally linear (forward and backward differences agree) and so is the adjoint field `a`,
in both directions.  `D` are the derivative matrices of the simulation. -/
structure Spec.LocallyLinear (D : Derivs Nx Ny) (eps : Grid Nx Ny ℂ) (H a : Vec (Nx * Ny) ℂ) (i : Fin Nx) (j : Fin Ny) : Prop where
  eps_x : eps (Spec.prev i) j = eps i j ∧ eps (Spec.next i) j = eps i j
  eps_y : eps i (Spec.prev j) = eps i j ∧ eps i (Spec.next j) = eps i j
  H_x : (D.Dxf *ᵥ H) (finProdFinEquiv (i, j)) = (D.Dxb *ᵥ H) (finProdFinEquiv (i, j)) ∧
    (D.Dxb *ᵥ H) (finProdFinEquiv (Spec.next i, j)) = (D.Dxb *ᵥ H) (finProdFinEquiv (i, j))
  H_y : (D.Dyf *ᵥ H) (finProdFinEquiv (i, j)) = (D.Dyb *ᵥ H) (finProdFinEquiv (i, j)) ∧
    (D.Dyb *ᵥ H) (finProdFinEquiv (i, Spec.next j)) = (D.Dyb *ᵥ H) (finProdFinEquiv (i, j))
  a_x : (D.Dxfᵀ *ᵥ a) (finProdFinEquiv (Spec.next i, j)) = (D.Dxfᵀ *ᵥ a) (finProdFinEquiv (i, j))
  a_y : (D.Dyfᵀ *ᵥ a) (finProdFinEquiv (i, Spec.next j)) = (D.Dyfᵀ *ᵥ a) (finProdFinEquiv (i, j))

/-- One direction of the comparison between the true derivative (averaged permittivity, backward differences) and the code's formula. -/
theorem sum_avg_x (E0 : ℂ) (d e u v v' : Grid Nx Ny ℂ)
    (h : ∀ i j, d i j ≠ 0 → (e (Spec.prev i) j = e i j ∧ e (Spec.next i) j = e i j) ∧ (v' i j = v i j ∧ v (Spec.next i) j = v i j) ∧ u (Spec.next i) j = u i j) :
    ∑ i, ∑ j, u i j * (-grid_average (fun i j => E0 * d i j) .x i j / grid_average (fun i j => E0 * e i j) .x i j ^ 2) * v i j =
      ∑ i, ∑ j, u i j * (-(E0 * d i j) / (E0 * e i j) ^ 2) * v' i j := by
  set F : Fin Nx → Fin Ny → ℂ := fun i j => u i j * v i j / grid_average (fun i j => E0 * e i j) .x i j ^ 2 with hF
  have h1 : ∀ i j, u i j * (-grid_average (fun i j => E0 * d i j) .x i j / grid_average (fun i j => E0 * e i j) .x i j ^ 2) * v i j =
      -(E0 / 2 * d (Spec.prev i) j * F i j) - E0 / 2 * d i j * F i j := by
    intro i j
    have hr : rollBack i = Spec.prev i := rfl
    rw [hF]
    simp only [grid_average, hr]
    ring
  simp only [h1, Finset.sum_sub_distrib, Finset.sum_neg_distrib]
  have h2 : ∑ i, ∑ j, E0 / 2 * d (Spec.prev i) j * F i j = ∑ i, ∑ j, E0 / 2 * d i j * F (Spec.next i) j := by
    rw [← Equiv.sum_comp (nextEquiv Nx)]
    refine Finset.sum_congr rfl fun i _ => Finset.sum_congr rfl fun j _ => ?_
    show E0 / 2 * d (Spec.prev (Spec.next i)) j * F (Spec.next i) j = _
    rw [prev_next]
  rw [h2, ← Finset.sum_neg_distrib, ← Finset.sum_sub_distrib]
  refine Finset.sum_congr rfl fun i _ => ?_
  rw [← Finset.sum_neg_distrib, ← Finset.sum_sub_distrib]
  refine Finset.sum_congr rfl fun j _ => ?_
  by_cases hd : d i j = 0
  · rw [hd]; ring
  · obtain ⟨⟨e1, e2⟩, ⟨v1, v2⟩, u1⟩ := h i j hd
    have g1 : grid_average (fun i j => E0 * e i j) .x i j = E0 * e i j := by
      show (E0 * e (Spec.prev i) j + E0 * e i j) / 2 = _
      rw [e1]; ring
    have g2 : grid_average (fun i j => E0 * e i j) .x (Spec.next i) j = E0 * e i j := by
      show (E0 * e (Spec.prev (Spec.next i)) j + E0 * e (Spec.next i) j) / 2 = _
      rw [prev_next, e2]; ring
    simp only [hF, g1, g2, v1, v2, u1]
    ring

theorem sum_avg_y (E0 : ℂ) (d e u v v' : Grid Nx Ny ℂ)
    (h : ∀ i j, d i j ≠ 0 → (e i (Spec.prev j) = e i j ∧ e i (Spec.next j) = e i j) ∧ (v' i j = v i j ∧ v i (Spec.next j) = v i j) ∧ u i (Spec.next j) = u i j) :
    ∑ i, ∑ j, u i j * (-grid_average (fun i j => E0 * d i j) .y i j / grid_average (fun i j => E0 * e i j) .y i j ^ 2) * v i j =
      ∑ i, ∑ j, u i j * (-(E0 * d i j) / (E0 * e i j) ^ 2) * v' i j := by
  have := sum_avg_x E0 (fun j i => d i j) (fun j i => e i j) (fun j i => u i j) (fun j i => v i j) (fun j i => v' i j) (fun j i => h i j)
  rw [Finset.sum_comm]
  exact this.trans Finset.sum_comm

/-- **C32, where the fields are locally linear.** The gradient returned for an objective of the linear Hz field is the exact derivative at every pixel whose filter neighbourhood
lies in locally uniform material in which the field and the adjoint field vary linearly.  The code evaluates the forward field with the forward differences (`gradients.py:233-234`) and uses
the permittivity at the pixel, whereas the system uses backward differences and averaged permittivities; that is what the extra hypothesis compensates.
Missing: all other pixels; there the property is false (`C32_false`). -/
theorem C32_gradient_exact_partial (env : Env) (he : env.Exact) (o : Opt Nx Ny) (J : ObjFn Nx Ny) (args : List ObjArg) (rho : Grid Nx Ny ℝ)
    (hS : Spec.LinearHz env o J args rho) (i0 : Fin Nx) (j0 : Fin Ny) (hW : Spec.FilterSym o.W o.design_region i0 j0)
    (hsm : ∀ i j, o.W (finProdFinEquiv (i, j)) (finProdFinEquiv (i0, j0)) ≠ 0 → ∀ (H : Grid Nx Ny ℂ) (a : Vec (Nx * Ny) ℂ) (k : Fin J.arity),
      (o.simulation.solve_fields env).2.fields .Hz = some H → o.simulation.Aᵀ *ᵥ a = -flatten (J.partials k fun _ => H) →
      Spec.LocallyLinear o.simulation.derivs o.simulation.eps_r (flatten H) a i j) :
    ∃ g f, (Opt.compute_dJ env o).1 = .ok g ∧
      (∀ t, (Opt.compute_J env o (some (Spec.simAt o (Spec.bump rho i0 j0 t)))).1 = .ok (f t)) ∧ HasDerivAt f (g i0 j0) 0 := by
  obtain ⟨g, f, h1, h2, h3, h4⟩ := gradient_Hz_formula env he o J args rho hS i0 j0
  refine ⟨g, f, h1, h2, h4.congr_deriv ?_⟩
  rw [h3]
  refine Finset.sum_congr rfl fun k _ => ?_
  set X : Grid Nx Ny ℂ := unflatten (solver_direct env o.simulation.A o.simulation.rhs) with hX
  set b : Grid Nx Ny ℂ := fun i j => -J.partials k (fun _ => X) i j with hb
  set a := solver_direct env o.simulation.Aᵀ (flatten b) with ha
  have hfl : (o.simulation.solve_fields env).2.fields .Hz = some X := by
    obtain ⟨t, ht, hst⟩ := solve_fields_Hz env o.simulation hS.pol
    rw [ht]; exact hst
  have hdetT : o.simulation.Aᵀ.det ≠ 0 := by rw [Matrix.det_transpose]; exact hS.det
  have haj : o.simulation.Aᵀ *ᵥ a = -flatten (J.partials k fun _ => X) := solver_direct_spec he (Or.inl hdetT)
  have hd : (fun i j => (((o.eps_m - 1) * drhob_drhot (rho2rhot rho o.W i j) o.eta o.beta * (o.W (finProdFinEquiv (i0, j0)) (finProdFinEquiv (i, j)) * o.design_region i j) : ℝ) : ℂ)) = Spec.epsDot o rho i0 j0 := by
    funext i j
    have hWij : o.W (finProdFinEquiv (i0, j0)) (finProdFinEquiv (i, j)) * o.design_region i j = o.W (finProdFinEquiv (i, j)) (finProdFinEquiv (i0, j0)) := by
      rcases hW i j with ⟨h1, h2⟩ | ⟨h1, h2⟩
      · rw [h2, h1, mul_one]
      · rw [h2, h1, mul_zero]
    rw [hWij]; rfl
  have hl : ∀ i j, Spec.epsDot o rho i0 j0 i j ≠ 0 → Spec.LocallyLinear o.simulation.derivs o.simulation.eps_r (flatten X) a i j := by
    intro i j hne
    refine hsm i j (fun h0 => hne ?_) X a k hfl haj
    simp only [Spec.epsDot, h0, mul_zero, Complex.ofReal_zero]
  rw [pair_dAHz _ _ _ _ _ _ _ o.simulation.derivs hS.valid.derivs_eq, tail_Hz_apply env o rho X b hS.valid.omega_pos.ne', hd]
  congr 1
  rw [Finset.sum_add_distrib, Finset.sum_add_distrib]
  simp only [sum_flat, flatten_pair]
  refine congrArg₂ (· + ·) ?_ ?_
  · exact sum_avg_x _ (Spec.epsDot o rho i0 j0) o.simulation.eps_r (fun i j => (o.simulation.derivs.Dxfᵀ *ᵥ a) (finProdFinEquiv (i, j))) (fun i j => (o.simulation.derivs.Dxb *ᵥ flatten X) (finProdFinEquiv (i, j)))
      (fun i j => (o.simulation.derivs.Dxf *ᵥ flatten X) (finProdFinEquiv (i, j))) fun i j hne => ⟨(hl i j hne).eps_x, (hl i j hne).H_x, (hl i j hne).a_x⟩
  · exact sum_avg_y _ (Spec.epsDot o rho i0 j0) o.simulation.eps_r (fun i j => (o.simulation.derivs.Dyfᵀ *ᵥ a) (finProdFinEquiv (i, j))) (fun i j => (o.simulation.derivs.Dyb *ᵥ flatten X) (finProdFinEquiv (i, j)))
      (fun i j => (o.simulation.derivs.Dyf *ᵥ flatten X) (finProdFinEquiv (i, j))) fun i j hne => ⟨(hl i j hne).eps_y, (hl i j hne).H_y, (hl i j hne).a_y⟩

/-! ## Concrete cases -/

/-- An Hz simulation without PML, coarse enough to be nonsingular (`ε₀ L0 = 1`, `ω = 1`, `dl = 3/η₀`), vacuum, zero density. -/
noncomputable def hsim (Nx Ny : ℕ) (src : Grid Nx Ny ℂ) : Sim Nx Ny :=
  let xr : ℝ × ℝ := (0, Nx * (3 / ETA_0))
  let yr : ℝ × ℝ := (0, Ny * (3 / ETA_0))
  let r := construct_A 1 xr yr (fun _ _ => 1) (0, 0) .Hz (1 / EPSILON_0)
  { L0 := 1 / EPSILON_0, omega := 1, dl := 3 / ETA_0, NPML := (0, 0), pol := .Hz, xrange := xr, yrange := yr,
    src := src, eps_r := fun _ _ => 1, A := r.1, derivs := r.2, fields := fun _ => none, fields_nl := fun _ => none, nonlinearity := [],
    eps_nl := fun _ _ => 0, dnl_de := fun _ _ => 0, dnl_deps := fun _ _ => 0, Anl := none, rho := some (some fun _ _ => 0) }

theorem hsim_valid (src : Grid Nx Ny ℂ) : (hsim Nx Ny src).Valid where
  L0_pos := one_div_pos.2 EPSILON_0_pos
  omega_pos := one_pos
  xr := rfl
  yr := rfl
  A_eq := rfl
  derivs_eq := construct_A_derivs _ _ _ _ _ _ _ _

theorem hsim_det (hx : 1 < Nx) (hy : 1 < Ny) (src : Grid Nx Ny ℂ) : (hsim Nx Ny src).A.det ≠ 0 := by
  refine wellposed_Hz (hsim Nx Ny src) (hsim_valid src) rfl (div_pos (by norm_num) ETA_0_pos) hx hy 1 one_pos ?_ ?_
  · intro w i j
    cases w <;> simp [hsim, grid_average]
  · show 8 / (EPSILON_0 * (1 / EPSILON_0) * 1 * (3 / ETA_0) ^ 2) < (1 : ℝ) ^ 2 * (MU_0 * (1 / EPSILON_0))
    rw [mu0_norm, eps0_norm]
    have := ETA_0_pos
    rw [one_pow, one_mul, one_mul, one_mul, div_pow, div_div_eq_mul_div, div_lt_iff₀ (by norm_num)]
    nlinarith [sq_pos_of_pos this]

/-- An `Optimization` of the witness simulation, unfiltered, every pixel a design pixel. -/
noncomputable def hopt (src : Grid Nx Ny ℂ) (ob : Objective Nx Ny) : Opt Nx Ny :=
  { objective := ob, simulation := hsim Nx Ny src, design_region := fun _ _ => 1, W := 1, eps_m := 5, eta := 1 / 2, beta := 1, max_ind_shift := none,
    src_amplitudes := [], objfn_list := [], fields_current := false, field_arg_list := none }

theorem hopt_setup (env : Env) (hx : 1 < Nx) (hy : 1 < Ny) (src : Grid Nx Ny ℂ) (p : Grid Nx Ny ℂ) :
    Spec.LinearHz env (hopt src (Objective.mk' (linearJ p) [⟨.Hz, false, .linear_Hz⟩])) (linearJ p) [⟨.Hz, false, .linear_Hz⟩] fun _ _ => 0 where
  obj := rfl
  args_Hz := by
    intro a ha
    rw [List.mem_singleton] at ha
    rw [ha]; rfl
  valid := hsim_valid src
  pol := rfl
  det := hsim_det hx hy src
  stale := rfl
  density := rfl
  eps := by rw [rho2eps_zero]; funext i j; simp [hopt, hsim]
  eps_pos := by rw [rho2eps_zero]; intro i j; exact one_pos
  beta := one_ne_zero
  autograd := fun x _ => linearJ_autograd p x

/-- For every pair of fields there are a source and an objective that have them as forward and adjoint solutions. -/
theorem hopt_fields (env : Env) (he : env.Exact) (hx : 1 < Nx) (hy : 1 < Ny) (f a : Grid Nx Ny ℂ) :
    ∃ src p : Grid Nx Ny ℂ, solver_direct env (hsim Nx Ny src).A (hsim Nx Ny src).rhs = flatten f ∧ (hsim Nx Ny src).Aᵀ *ᵥ flatten a = -flatten p := by
  have hAs : ∀ src, (hsim Nx Ny src).A = (hsim Nx Ny (fun _ _ => 0)).A := fun _ => rfl
  generalize hA : (hsim Nx Ny (fun _ _ => 0)).A = A at hAs
  refine ⟨unflatten fun k => (A *ᵥ flatten f) k / Complex.I, unflatten (-(Aᵀ *ᵥ flatten a)), ?_, ?_⟩
  · refine solver_direct_unique he (hsim_det hx hy _) ?_
    rw [hAs]
    funext k
    show (A *ᵥ flatten f) k = flatten (unflatten (Nx := Nx) (Ny := Ny) fun k => (A *ᵥ flatten f) k / Complex.I) k * Complex.I * ((1 : ℝ) : ℂ)
    rw [flatten_unflatten, div_mul_cancel₀ _ Complex.I_ne_zero]
    simp
  · rw [hAs, flatten_unflatten, neg_neg]

/-- The derivative matrices of the witness, applied. -/
theorem hsim_derivs (hx : 1 < Nx) (hy : 1 < Ny) (src f : Grid Nx Ny ℂ) :
    ((hsim Nx Ny src).derivs.Dxf *ᵥ flatten f = flatten (Spec.fwdX (3 / ETA_0) f)) ∧ ((hsim Nx Ny src).derivs.Dxb *ᵥ flatten f = flatten (Spec.bwdX (3 / ETA_0) f)) ∧
    ((hsim Nx Ny src).derivs.Dyf *ᵥ flatten f = flatten (Spec.fwdY (3 / ETA_0) f)) ∧ ((hsim Nx Ny src).derivs.Dyb *ᵥ flatten f = flatten (Spec.bwdY (3 / ETA_0) f)) := by
  have hd : (hsim Nx Ny src).derivs = mkDerivs 1 (0, Nx * (3 / ETA_0)) (0, Ny * (3 / ETA_0)) Nx Ny (0, 0) (1 / EPSILON_0) := (hsim_valid src).derivs_eq
  have h1 : dL Nx Ny ((0 : ℝ), (Nx : ℝ) * (3 / ETA_0)) ((0 : ℝ), (Ny : ℝ) * (3 / ETA_0)) = (3 / ETA_0, 3 / ETA_0) := (hsim_valid (Nx := Nx) (Ny := Ny) src).dL_eq (by omega) (by omega)
  rw [hd]
  simp only [mkDerivs_Dxb _ _ _ _ _ hx, mkDerivs_Dyb _ _ _ _ _ hy, mkDerivs_Dxf _ _ _ _ _ hx, mkDerivs_Dyf _ _ _ _ _ hy, h1, sfactor_zero, div_one, and_self]

/-- The transposed differences. -/
theorem transpose_entry (D : Mat (Nx * Ny) ℂ) (a : Grid Nx Ny ℂ) (i : Fin Nx) (j : Fin Ny) :
    (Dᵀ *ᵥ flatten a) (finProdFinEquiv (i, j)) = (D *ᵥ flatten (Spec.single i j)) ⬝ᵥ flatten a := by
  have : (flatten (Spec.single i j) : Vec (Nx * Ny) ℂ) = Pi.single (finProdFinEquiv (i, j)) 1 := by
    refine flat_ext fun i' j' => ?_
    rw [flatten_pair, Pi.single_apply]
    simp only [Spec.single, finProdFinEquiv.injective.eq_iff, Prod.mk.injEq]
  rw [this, Matrix.mulVec_single_one]
  rfl

theorem hsim_transpose (hx : 1 < Nx) (hy : 1 < Ny) (src a : Grid Nx Ny ℂ) (i : Fin Nx) (j : Fin Ny) :
    ((hsim Nx Ny src).derivs.Dxfᵀ *ᵥ flatten a) (finProdFinEquiv (i, j)) = -(Spec.bwdX (3 / ETA_0) a i j) ∧
    ((hsim Nx Ny src).derivs.Dyfᵀ *ᵥ flatten a) (finProdFinEquiv (i, j)) = -(Spec.bwdY (3 / ETA_0) a i j) := by
  obtain ⟨h1, -, h2, -⟩ := hsim_derivs hx hy src (Spec.single i j)
  have hn : ∀ {n : ℕ} (x y : Fin n), Spec.next x = y ↔ x = Spec.prev y := fun x y => ⟨fun h => by rw [← h, prev_next], fun h => by rw [h, next_prev]⟩
  constructor
  · rw [transpose_entry, h1, dotProduct, sum_flat]
    simp only [flatten_pair, Spec.fwdX, Spec.bwdX]
    have : ∀ x y, (Spec.single i j (Spec.next x) y - Spec.single i j x y) / ((3 / ETA_0 : ℝ) : ℂ) * a x y =
        Spec.single (Spec.prev i) j x y * (a x y / ((3 / ETA_0 : ℝ) : ℂ)) - Spec.single i j x y * (a x y / ((3 / ETA_0 : ℝ) : ℂ)) := by
      intro x y
      simp only [Spec.single, hn]
      ring
    simp only [this, Finset.sum_sub_distrib, sum_single]
    ring
  · rw [transpose_entry, h2, dotProduct, sum_flat]
    simp only [flatten_pair, Spec.fwdY, Spec.bwdY]
    have : ∀ x y, (Spec.single i j x (Spec.next y) - Spec.single i j x y) / ((3 / ETA_0 : ℝ) : ℂ) * a x y =
        Spec.single i (Spec.prev j) x y * (a x y / ((3 / ETA_0 : ℝ) : ℂ)) - Spec.single i j x y * (a x y / ((3 / ETA_0 : ℝ) : ℂ)) := by
      intro x y
      simp only [Spec.single, hn]
      ring
    simp only [this, Finset.sum_sub_distrib, sum_single]
    ring

theorem next_ne {n : ℕ} (hn : 1 < n) (i : Fin n) : Spec.next i ≠ i ∧ Spec.prev i ≠ i := by
  have key : Spec.next i ≠ i := by
    intro h
    have h1 : (i + 1) % n = (i : ℕ) := congrArg Fin.val h
    have := i.2
    rcases Nat.lt_or_ge (i + 1) n with h2 | h2
    · rw [Nat.mod_eq_of_lt h2] at h1; omega
    · have h3 : (i : ℕ) + 1 = n := by omega
      rw [h3, Nat.mod_self] at h1; omega
  refine ⟨key, fun h => key ?_⟩
  conv_lhs => rw [← h]
  exact next_prev i

theorem single_self (i : Fin Nx) (j : Fin Ny) : Spec.single i j i j = 1 := if_pos ⟨rfl, rfl⟩

theorem single_ne_x {i i' : Fin Nx} (j j' : Fin Ny) (h : i' ≠ i) : Spec.single i j i' j' = 0 := if_neg fun hc => h hc.1

theorem single_ne_y (i i' : Fin Nx) {j j' : Fin Ny} (h : j' ≠ j) : Spec.single i j i' j' = 0 := if_neg fun hc => h hc.2

/-- The derivative of the permittivity in the witness: one pixel. -/
theorem hopt_epsDot (src : Grid Nx Ny ℂ) (ob : Objective Nx Ny) (i0 : Fin Nx) (j0 : Fin Ny) :
    ∃ c : ℝ, 0 < c ∧ Spec.epsDot (hopt src ob) (fun _ _ => 0) i0 j0 = fun i j => (c : ℂ) * Spec.single i0 j0 i j := by
  refine ⟨4 * drhob_drhot (rho2rhot (fun _ _ => 0) 1 i0 j0) (1 / 2) 1, mul_pos (by norm_num) (drhob_drhot_pos _), ?_⟩
  funext i j
  have h : Spec.epsDot (hopt src ob) (fun _ _ => 0) i0 j0 i j =
      (((5 - 1) * drhob_drhot (rho2rhot (fun _ _ => 0) 1 i j) (1 / 2) 1 * (1 : Mat (Nx * Ny) ℝ) (finProdFinEquiv (i, j)) (finProdFinEquiv (i0, j0)) : ℝ) : ℂ) := rfl
  rw [h, Matrix.one_apply]
  simp only [finProdFinEquiv.injective.eq_iff, Prod.mk.injEq]
  by_cases hc : i = i0 ∧ j = j0
  · obtain ⟨rfl, rfl⟩ := hc
    rw [if_pos ⟨rfl, rfl⟩, single_self]
    norm_num
  · rw [if_neg hc, Spec.single, if_neg hc]
    simp

/-- Gradient and derivative of the witness, for given forward and adjoint fields. -/
theorem hopt_values_at (env : Env) (he : env.Exact) (hx : 1 < Nx) (hy : 1 < Ny) (F a src p : Grid Nx Ny ℂ)
    (hF : solver_direct env (hsim Nx Ny src).A (hsim Nx Ny src).rhs = flatten F) (ha : (hsim Nx Ny src).Aᵀ *ᵥ flatten a = -flatten p) (i0 : Fin Nx) (j0 : Fin Ny) :
    ∃ c : ℝ, 0 < c ∧
      let o := hopt src (Objective.mk' (linearJ p) [⟨.Hz, false, .linear_Hz⟩])
      ∃ g f f', (Opt.compute_dJ env o).1 = .ok g ∧
        (∀ t, (Opt.compute_J env o (some (Spec.simAt o (Spec.bump (fun _ _ => 0) i0 j0 t)))).1 = .ok (f t)) ∧ HasDerivAt f f' 0 ∧
        g i0 j0 = ((c : ℂ) * (Spec.bwdX (3 / ETA_0) a i0 j0 * Spec.fwdX (3 / ETA_0) F i0 j0 + Spec.bwdY (3 / ETA_0) a i0 j0 * Spec.fwdY (3 / ETA_0) F i0 j0)).re ∧
        f' = ((c : ℂ) / 2 * (Spec.bwdX (3 / ETA_0) a i0 j0 * Spec.bwdX (3 / ETA_0) F i0 j0 + Spec.bwdX (3 / ETA_0) a (Spec.next i0) j0 * Spec.bwdX (3 / ETA_0) F (Spec.next i0) j0 +
          Spec.bwdY (3 / ETA_0) a i0 j0 * Spec.bwdY (3 / ETA_0) F i0 j0 + Spec.bwdY (3 / ETA_0) a i0 (Spec.next j0) * Spec.bwdY (3 / ETA_0) F i0 (Spec.next j0))).re := by
  have hS := hopt_setup env hx hy src p
  obtain ⟨c, hc, hdot⟩ := hopt_epsDot src (Objective.mk' (linearJ p) [⟨.Hz, false, .linear_Hz⟩]) i0 j0
  refine ⟨c, hc, ?_⟩
  obtain ⟨g, f, h1, h2, h3, h4⟩ := gradient_Hz_formula env he _ _ _ _ hS i0 j0
  refine ⟨g, f, _, h1, h2, h4, ?_, ?_⟩
  all_goals
    have hE : ((EPSILON_0 * (hsim Nx Ny src).L0 : ℝ) : ℂ) = 1 := by rw [show EPSILON_0 * (hsim Nx Ny src).L0 = 1 from eps0_norm]; simp
    have hadj : solver_direct env (hsim Nx Ny src).Aᵀ (flatten fun i j => -p i j) = flatten a :=
      solver_direct_unique he (by rw [Matrix.det_transpose]; exact hsim_det hx hy src) ha
    have hX : (unflatten (solver_direct env (hsim Nx Ny src).A (hsim Nx Ny src).rhs) : Grid Nx Ny ℂ) = F := by rw [hF, unflatten_flatten]
    obtain ⟨d1, d2, d3, d4⟩ := hsim_derivs hx hy src F
    have t1 := fun i j => (hsim_transpose hx hy src a i j).1
    have t2 := fun i j => (hsim_transpose hx hy src a i j).2
    have hs : ∀ i j, Spec.single i0 j0 (Spec.prev i) j = Spec.single (Spec.next i0) j0 i j := by
      intro i j
      have : Spec.prev i = i0 ↔ i = Spec.next i0 := ⟨fun h => by rw [← h, next_prev], fun h => by rw [h, prev_next]⟩
      simp only [Spec.single, this]
    have hs' : ∀ i j, Spec.single i0 j0 i (Spec.prev j) = Spec.single i0 (Spec.next j0) i j := by
      intro i j
      have : Spec.prev j = j0 ↔ j = Spec.next j0 := ⟨fun h => by rw [← h, next_prev], fun h => by rw [h, prev_next]⟩
      simp only [Spec.single, this]
  · set o := hopt src (Objective.mk' (linearJ p) [⟨.Hz, false, .linear_Hz⟩]) with ho
    have hd : (fun i j => (((o.eps_m - 1) * drhob_drhot (rho2rhot (fun _ _ => 0) o.W i j) o.eta o.beta * (o.W (finProdFinEquiv (i0, j0)) (finProdFinEquiv (i, j)) * o.design_region i j) : ℝ) : ℂ)) =
        fun i j => (c : ℂ) * Spec.single i0 j0 i j := by
      rw [← hdot]
      funext i j
      have hw : o.W (finProdFinEquiv (i0, j0)) (finProdFinEquiv (i, j)) * o.design_region i j = o.W (finProdFinEquiv (i, j)) (finProdFinEquiv (i0, j0)) := by
        show (1 : Mat (Nx * Ny) ℝ) (finProdFinEquiv (i0, j0)) (finProdFinEquiv (i, j)) * (1 : ℝ) = (1 : Mat (Nx * Ny) ℝ) (finProdFinEquiv (i, j)) (finProdFinEquiv (i0, j0))
        rw [mul_one, Matrix.one_apply, Matrix.one_apply]
        simp only [eq_comm]
      rw [hw]; rfl
    have ht := tail_Hz_apply env o (fun _ _ => 0) F (fun i j => -p i j) one_ne_zero i0 j0
    have e1 : o.simulation = hsim Nx Ny src := rfl
    simp only [hd, e1, hadj, hE, d1, d3] at ht
    rw [h3]
    show (∑ k : Fin 1, Opt.tail_Hz env o (fun _ _ => 0) (unflatten (solver_direct env (hsim Nx Ny src).A (hsim Nx Ny src).rhs)) (fun i j => -p i j) i0 j0) = _
    rw [Fin.sum_univ_one, hX, ht]
    congr 1
    have e2 : ∀ i j, (hsim Nx Ny src).eps_r i j = 1 := fun _ _ => rfl
    simp only [sum_flat, flatten_pair, t1, t2, e2]
    have e3 : ∀ i j, -Spec.bwdX (3 / ETA_0) a i j * (-(1 * ((c : ℂ) * Spec.single i0 j0 i j)) / (1 * 1) ^ 2) * Spec.fwdX (3 / ETA_0) F i j +
        -Spec.bwdY (3 / ETA_0) a i j * (-(1 * ((c : ℂ) * Spec.single i0 j0 i j)) / (1 * 1) ^ 2) * Spec.fwdY (3 / ETA_0) F i j =
        Spec.single i0 j0 i j * ((c : ℂ) * (Spec.bwdX (3 / ETA_0) a i j * Spec.fwdX (3 / ETA_0) F i j + Spec.bwdY (3 / ETA_0) a i j * Spec.fwdY (3 / ETA_0) F i j)) := by
      intro i j; ring
    simp only [e3, sum_single]
  · set o := hopt src (Objective.mk' (linearJ p) [⟨.Hz, false, .linear_Hz⟩]) with ho
    show (∑ k : Fin 1, (solver_direct env (hsim Nx Ny src).Aᵀ (flatten fun i j => -p i j) ⬝ᵥ
        (dAHz (hsim Nx Ny src).omega (hsim Nx Ny src).xrange (hsim Nx Ny src).yrange (hsim Nx Ny src).NPML (hsim Nx Ny src).L0 (hsim Nx Ny src).eps_r (Spec.epsDot o (fun _ _ => 0) i0 j0) *ᵥ
          flatten (unflatten (solver_direct env (hsim Nx Ny src).A (hsim Nx Ny src).rhs) : Grid Nx Ny ℂ))).re) = _
    rw [Fin.sum_univ_one, hX, hadj, hdot, pair_dAHz _ _ _ _ _ _ _ (hsim Nx Ny src).derivs (hsim_valid src).derivs_eq]
    congr 1
    simp only [hE, d2, d4]
    have e2 : ∀ w i j, grid_average (fun i j => 1 * (hsim Nx Ny src).eps_r i j) w i j = 1 := by
      intro w i j
      cases w <;> simp [grid_average, hsim]
    have e4 : ∀ i j, grid_average (fun i j => 1 * ((c : ℂ) * Spec.single i0 j0 i j)) .x i j = (c : ℂ) / 2 * Spec.single (Spec.next i0) j0 i j + (c : ℂ) / 2 * Spec.single i0 j0 i j := by
      intro i j
      show (1 * ((c : ℂ) * Spec.single i0 j0 (Spec.prev i) j) + 1 * ((c : ℂ) * Spec.single i0 j0 i j)) / 2 = _
      rw [hs]; ring
    have e5 : ∀ i j, grid_average (fun i j => 1 * ((c : ℂ) * Spec.single i0 j0 i j)) .y i j = (c : ℂ) / 2 * Spec.single i0 (Spec.next j0) i j + (c : ℂ) / 2 * Spec.single i0 j0 i j := by
      intro i j
      show (1 * ((c : ℂ) * Spec.single i0 j0 i (Spec.prev j)) + 1 * ((c : ℂ) * Spec.single i0 j0 i j)) / 2 = _
      rw [hs']; ring
    simp only [sum_flat, flatten_pair, t1, t2, e2, e4, e5]
    have e3 : ∀ i j, -Spec.bwdX (3 / ETA_0) a i j * (-((c : ℂ) / 2 * Spec.single (Spec.next i0) j0 i j + (c : ℂ) / 2 * Spec.single i0 j0 i j) / 1 ^ 2) * Spec.bwdX (3 / ETA_0) F i j +
        -Spec.bwdY (3 / ETA_0) a i j * (-((c : ℂ) / 2 * Spec.single i0 (Spec.next j0) i j + (c : ℂ) / 2 * Spec.single i0 j0 i j) / 1 ^ 2) * Spec.bwdY (3 / ETA_0) F i j =
        Spec.single (Spec.next i0) j0 i j * ((c : ℂ) / 2 * (Spec.bwdX (3 / ETA_0) a i j * Spec.bwdX (3 / ETA_0) F i j)) +
        Spec.single i0 j0 i j * ((c : ℂ) / 2 * (Spec.bwdX (3 / ETA_0) a i j * Spec.bwdX (3 / ETA_0) F i j + Spec.bwdY (3 / ETA_0) a i j * Spec.bwdY (3 / ETA_0) F i j)) +
        Spec.single i0 (Spec.next j0) i j * ((c : ℂ) / 2 * (Spec.bwdY (3 / ETA_0) a i j * Spec.bwdY (3 / ETA_0) F i j)) := by
      intro i j; ring
    simp only [e3, Finset.sum_add_distrib, sum_single]
    ring

theorem hopt_values (env : Env) (he : env.Exact) (hx : 1 < Nx) (hy : 1 < Ny) (F a : Grid Nx Ny ℂ) (i0 : Fin Nx) (j0 : Fin Ny) :
    ∃ (src p : Grid Nx Ny ℂ) (c : ℝ), 0 < c ∧ solver_direct env (hsim Nx Ny src).A (hsim Nx Ny src).rhs = flatten F ∧ (hsim Nx Ny src).Aᵀ *ᵥ flatten a = -flatten p ∧
      let o := hopt src (Objective.mk' (linearJ p) [⟨.Hz, false, .linear_Hz⟩])
      ∃ g f f', (Opt.compute_dJ env o).1 = .ok g ∧
        (∀ t, (Opt.compute_J env o (some (Spec.simAt o (Spec.bump (fun _ _ => 0) i0 j0 t)))).1 = .ok (f t)) ∧ HasDerivAt f f' 0 ∧
        g i0 j0 = ((c : ℂ) * (Spec.bwdX (3 / ETA_0) a i0 j0 * Spec.fwdX (3 / ETA_0) F i0 j0 + Spec.bwdY (3 / ETA_0) a i0 j0 * Spec.fwdY (3 / ETA_0) F i0 j0)).re ∧
        f' = ((c : ℂ) / 2 * (Spec.bwdX (3 / ETA_0) a i0 j0 * Spec.bwdX (3 / ETA_0) F i0 j0 + Spec.bwdX (3 / ETA_0) a (Spec.next i0) j0 * Spec.bwdX (3 / ETA_0) F (Spec.next i0) j0 +
          Spec.bwdY (3 / ETA_0) a i0 j0 * Spec.bwdY (3 / ETA_0) F i0 j0 + Spec.bwdY (3 / ETA_0) a i0 (Spec.next j0) * Spec.bwdY (3 / ETA_0) F i0 (Spec.next j0))).re := by
  obtain ⟨src, p, hF, ha⟩ := hopt_fields env he hx hy F a
  obtain ⟨c, hc, h⟩ := hopt_values_at env he hx hy F a src p hF ha i0 j0
  exact ⟨src, p, c, hc, hF, ha, h⟩

/-- **C32 is false.** On every grid (at least two cells each way, vacuum, no PML, no filter, every pixel a design pixel) and for every pixel there are a source and a linear objective of Hz
for which the gradient returned at that pixel is exactly the *negative* of the derivative, which is not zero. -/
theorem C32_false (env : Env) (he : env.Exact) (hx : 1 < Nx) (hy : 1 < Ny) (i0 : Fin Nx) (j0 : Fin Ny) :
    ∃ (J : ObjFn Nx Ny) (src : Grid Nx Ny ℂ),
      let o := hopt src (Objective.mk' J [⟨.Hz, false, .linear_Hz⟩])
      Spec.LinearHz env o J [⟨.Hz, false, .linear_Hz⟩] (fun _ _ => 0) ∧
      ∃ g f f', (Opt.compute_dJ env o).1 = .ok g ∧
        (∀ t, (Opt.compute_J env o (some (Spec.simAt o (Spec.bump (fun _ _ => 0) i0 j0 t)))).1 = .ok (f t)) ∧ HasDerivAt f f' 0 ∧ g i0 j0 = -f' ∧ f' ≠ 0 := by
  obtain ⟨src, p, c, hc, -, -, g, f, f', h1, h2, h3, h4, h5⟩ := hopt_values env he hx hy (Spec.single i0 j0) (Spec.single i0 j0) i0 j0
  refine ⟨linearJ p, src, hopt_setup env hx hy src p, g, f, f', h1, h2, h3, ?_⟩
  have hnx := next_ne hx i0
  have hny := next_ne hy j0
  have b1 : Spec.bwdX (3 / ETA_0) (Spec.single i0 j0) i0 j0 = 1 / ((3 / ETA_0 : ℝ) : ℂ) := by rw [Spec.bwdX, single_self, single_ne_x _ _ hnx.2, sub_zero]
  have b2 : Spec.bwdX (3 / ETA_0) (Spec.single i0 j0) (Spec.next i0) j0 = -1 / ((3 / ETA_0 : ℝ) : ℂ) := by rw [Spec.bwdX, prev_next, single_self, single_ne_x _ _ hnx.1, zero_sub]
  have b3 : Spec.bwdY (3 / ETA_0) (Spec.single i0 j0) i0 j0 = 1 / ((3 / ETA_0 : ℝ) : ℂ) := by rw [Spec.bwdY, single_self, single_ne_y _ _ hny.2, sub_zero]
  have b4 : Spec.bwdY (3 / ETA_0) (Spec.single i0 j0) i0 (Spec.next j0) = -1 / ((3 / ETA_0 : ℝ) : ℂ) := by rw [Spec.bwdY, prev_next, single_self, single_ne_y _ _ hny.1, zero_sub]
  have b5 : Spec.fwdX (3 / ETA_0) (Spec.single i0 j0) i0 j0 = -1 / ((3 / ETA_0 : ℝ) : ℂ) := by rw [Spec.fwdX, single_self, single_ne_x _ _ hnx.1, zero_sub]
  have b6 : Spec.fwdY (3 / ETA_0) (Spec.single i0 j0) i0 j0 = -1 / ((3 / ETA_0 : ℝ) : ℂ) := by rw [Spec.fwdY, single_self, single_ne_y _ _ hny.1, zero_sub]
  have hh : (0 : ℝ) < 3 / ETA_0 := div_pos (by norm_num) ETA_0_pos
  rw [b1, b3, b5, b6] at h4
  rw [b1, b2, b3, b4] at h5
  generalize 3 / ETA_0 = h at hh h4 h5
  have e1 : f' = c * (2 / h ^ 2) := by
    rw [h5, ← Complex.ofReal_re (c * (2 / h ^ 2))]
    congr 1
    push_cast
    ring
  have e2 : g i0 j0 = -(c * (2 / h ^ 2)) := by
    rw [h4, ← Complex.ofReal_re (-(c * (2 / h ^ 2)))]
    congr 1
    push_cast
    ring
  refine ⟨by rw [e1, e2], ?_⟩
  rw [e1]
  positivity

/-- The hypotheses of `C32_gradient_exact_partial` can be met with a gradient that is not zero: a field that is linear across the pixel, on a grid with at least three cells in x. -/
theorem locallyLinear_witness (env : Env) (he : env.Exact) (hx : 2 < Nx) (hy : 1 < Ny) (i0 : Fin Nx) (j0 : Fin Ny) :
    ∃ (src p : Grid Nx Ny ℂ),
      let o := hopt src (Objective.mk' (linearJ p) [⟨.Hz, false, .linear_Hz⟩])
      (∀ i j, o.W (finProdFinEquiv (i, j)) (finProdFinEquiv (i0, j0)) ≠ 0 → ∀ (H : Grid Nx Ny ℂ) (a : Vec (Nx * Ny) ℂ) (k : Fin (linearJ p).arity),
        (o.simulation.solve_fields env).2.fields .Hz = some H → o.simulation.Aᵀ *ᵥ a = -flatten ((linearJ p).partials k fun _ => H) →
        Spec.LocallyLinear o.simulation.derivs o.simulation.eps_r (flatten H) a i j) ∧
      ∃ g, (Opt.compute_dJ env o).1 = .ok g ∧ g i0 j0 ≠ 0 := by
  let F : Grid Nx Ny ℂ := fun i j => Spec.single (Spec.next i0) j0 i j - Spec.single (Spec.prev i0) j0 i j
  obtain ⟨src, p, c, hc, hF, ha, g, f, f', h1, -, -, h4, -⟩ := hopt_values env he (by omega) hy F F i0 j0
  have hnx := next_ne (show 1 < Nx by omega) i0
  have hny := next_ne hy j0
  have hnp : Spec.next i0 ≠ Spec.prev i0 := by
    intro h
    have h2 : Spec.next (Spec.next i0) = i0 := by rw [h, next_prev]
    have h1 : ((i0 + 1) % Nx + 1) % Nx = (i0 : ℕ) := congrArg Fin.val h2
    have := i0.2
    rw [Nat.mod_add_mod] at h1
    rcases Nat.lt_or_ge (i0 + 1 + 1) Nx with h3 | h3
    · rw [Nat.mod_eq_of_lt h3] at h1; omega
    · rw [Nat.mod_eq_sub_mod h3, Nat.mod_eq_of_lt (by omega)] at h1; omega
  have f0 : F i0 j0 = 0 := by simp only [F]; rw [single_ne_x _ _ hnx.1.symm, single_ne_x _ _ hnx.2.symm, sub_zero]
  have f1 : F (Spec.next i0) j0 = 1 := by simp only [F]; rw [single_self, single_ne_x _ _ hnp, sub_zero]
  have f2 : F (Spec.prev i0) j0 = -1 := by simp only [F]; rw [single_self, single_ne_x _ _ hnp.symm, zero_sub]
  have f3 : F i0 (Spec.next j0) = 0 := by simp only [F]; rw [single_ne_x _ _ hnx.1.symm, single_ne_x _ _ hnx.2.symm, sub_zero]
  have f4 : F i0 (Spec.prev j0) = 0 := by simp only [F]; rw [single_ne_x _ _ hnx.1.symm, single_ne_x _ _ hnx.2.symm, sub_zero]
  refine ⟨src, p, ?_, g, h1, ?_⟩
  · intro i j hne H a k hH haj
    have hij : i = i0 ∧ j = j0 := by
      have hne' : (1 : Mat (Nx * Ny) ℝ) (finProdFinEquiv (i, j)) (finProdFinEquiv (i0, j0)) ≠ 0 := hne
      by_contra hcon
      refine hne' (Matrix.one_apply_ne fun he => hcon ?_)
      simpa only [Prod.mk.injEq] using finProdFinEquiv.injective he
    obtain ⟨rfl, rfl⟩ := hij
    have hHF : H = F := by
      obtain ⟨t, ht, hst⟩ := solve_fields_Hz env (hsim Nx Ny src) rfl
      have h5 : ((hsim Nx Ny src).solve_fields env).2.fields .Hz = some H := hH
      rw [ht] at h5
      have h9 := Option.some.inj (hst.symm.trans h5)
      rw [← h9, hF, unflatten_flatten]
    have haF : a = flatten F := by
      have h6 : (hsim Nx Ny src).Aᵀ *ᵥ a = -flatten p := haj
      have h7 : (hsim Nx Ny src).Aᵀ *ᵥ (a - flatten F) = 0 := by rw [Matrix.mulVec_sub, h6, ha, sub_self]
      have h8 := Matrix.eq_zero_of_mulVec_eq_zero (by rw [Matrix.det_transpose]; exact hsim_det (by omega) hy src) h7
      exact sub_eq_zero.1 h8
    subst hHF haF
    obtain ⟨d1, d2, d3, d4⟩ := hsim_derivs (Nx := Nx) (Ny := Ny) (by omega) hy src F
    have t1 := fun x y => (hsim_transpose (Nx := Nx) (Ny := Ny) (by omega) hy src F x y).1
    have t2 := fun x y => (hsim_transpose (Nx := Nx) (Ny := Ny) (by omega) hy src F x y).2
    refine ⟨⟨rfl, rfl⟩, ⟨rfl, rfl⟩, ?_, ?_, ?_, ?_⟩
    · show ((hsim Nx Ny src).derivs.Dxf *ᵥ flatten F) _ = ((hsim Nx Ny src).derivs.Dxb *ᵥ flatten F) _ ∧ ((hsim Nx Ny src).derivs.Dxb *ᵥ flatten F) _ = ((hsim Nx Ny src).derivs.Dxb *ᵥ flatten F) _
      rw [d1, d2, flatten_pair, flatten_pair, flatten_pair, Spec.fwdX, Spec.bwdX, Spec.bwdX, prev_next, f0, f1, f2]
      norm_num
    · show ((hsim Nx Ny src).derivs.Dyf *ᵥ flatten F) _ = ((hsim Nx Ny src).derivs.Dyb *ᵥ flatten F) _ ∧ ((hsim Nx Ny src).derivs.Dyb *ᵥ flatten F) _ = ((hsim Nx Ny src).derivs.Dyb *ᵥ flatten F) _
      rw [d3, d4, flatten_pair, flatten_pair, flatten_pair, Spec.fwdY, Spec.bwdY, Spec.bwdY, prev_next, f0, f3, f4]
      norm_num
    · show ((hsim Nx Ny src).derivs.Dxfᵀ *ᵥ flatten F) _ = ((hsim Nx Ny src).derivs.Dxfᵀ *ᵥ flatten F) _
      rw [t1, t1, Spec.bwdX, Spec.bwdX, prev_next, f0, f1, f2]
      norm_num
    · show ((hsim Nx Ny src).derivs.Dyfᵀ *ᵥ flatten F) _ = ((hsim Nx Ny src).derivs.Dyfᵀ *ᵥ flatten F) _
      rw [t2, t2, Spec.bwdY, Spec.bwdY, prev_next, f0, f3, f4]
  · have hh : (0 : ℝ) < 3 / ETA_0 := div_pos (by norm_num) ETA_0_pos
    rw [Spec.bwdX, Spec.fwdX, Spec.bwdY, Spec.fwdY, f0, f1, f2, f3, f4] at h4
    generalize 3 / ETA_0 = h at hh h4
    have e1 : g i0 j0 = c * (1 / h ^ 2) := by
      rw [h4, ← Complex.ofReal_re (c * (1 / h ^ 2))]
      congr 1
      push_cast
      ring
    rw [e1]
    positivity

/-- `C32_gradient_exact_partial` applies to the witness, on any grid with at least three cells in x. -/
example (env : Env) (he : env.Exact) (hx : 2 < Nx) (hy : 1 < Ny) (i0 : Fin Nx) (j0 : Fin Ny) :
    ∃ (src p : Grid Nx Ny ℂ),
      let o := hopt src (Objective.mk' (linearJ p) [⟨.Hz, false, .linear_Hz⟩])
      ∃ g f, (Opt.compute_dJ env o).1 = .ok g ∧ g i0 j0 ≠ 0 ∧
        (∀ t, (Opt.compute_J env o (some (Spec.simAt o (Spec.bump (fun _ _ => 0) i0 j0 t)))).1 = .ok (f t)) ∧ HasDerivAt f (g i0 j0) 0 := by
  obtain ⟨src, p, hsm, g, hg, hne⟩ := locallyLinear_witness env he hx hy i0 j0
  obtain ⟨g', f, h1, h2, h3⟩ := C32_gradient_exact_partial env he _ _ _ _ (hopt_setup env (by omega) hy src p) i0 j0
    (filterSym_one (fun _ _ => Or.inr rfl) rfl) hsm
  have hgg : g' = g := Except.ok.inj (h1.symm.trans hg)
  subst hgg
  exact ⟨src, p, g', f, h1, hne, h2, h3⟩

end Angler
