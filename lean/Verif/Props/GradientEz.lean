import Verif.Lemmas.GradientEz
import Verif.Lemmas.Objectives
import Verif.Lemmas.WellPosed
import Verif.Props.Filter

/-! # C29, C30: the adjoint gradient in the Ez polarisation -/

namespace Angler

open Matrix

variable {Nx Ny : ℕ}

/-- The design mask is 0/1. -/
def Spec.Mask (design : Grid Nx Ny ℝ) : Prop := ∀ i j, design i j = 0 ∨ design i j = 1

theorem args_of_init {args : List ObjArg} (h : ∀ a ∈ args, ∃ c, c ∈ ["Ez", "Hx", "Hy"] ∧ ObjArg.init c false = .ok a) :
    ∀ a ∈ args, a.nl = false ∧ a.component.isEz ∧ a.gradient = gradientMap a.component a.nl := by
  intro a ha
  obtain ⟨c, hc, h⟩ := h a ha
  simp only [List.mem_cons, List.not_mem_nil, or_false] at hc
  rcases hc with rfl | rfl | rfl <;> cases h <;> exact ⟨rfl, trivial, rfl⟩

theorem filterSym_one {design : Grid Nx Ny ℝ} (hm : Spec.Mask design) {i0 : Fin Nx} {j0 : Fin Ny} (hd : design i0 j0 = 1) : Spec.FilterSym 1 design i0 j0 := by
  intro i j
  rcases hm i j with h | h
  · refine Or.inr ⟨h, Matrix.one_apply_ne fun hc => ?_⟩
    have := finProdFinEquiv.injective hc
    simp only [Prod.mk.injEq] at this
    rw [this.1, this.2, hd] at h
    exact one_ne_zero h
  · refine Or.inl ⟨h, ?_⟩
    simp only [Matrix.one_apply, eq_comm]

theorem filterSym_get_W {design : Grid Nx Ny ℝ} {NPML : ℕ × ℕ} {R : ℕ} {W : Mat (Nx * Ny) ℝ} (hW : get_W Nx Ny design NPML R = .ok W) (h1 : 1 ≤ NPML.1) (h2 : 1 ≤ NPML.2)
    (hR : 1 ≤ R) (hm : Spec.Mask design) (hin : ∀ i j, design i j = 1 → Interior Nx Ny NPML R i j) {i0 : Fin Nx} {j0 : Fin Ny} (hd : design i0 j0 = 1) :
    Spec.FilterSym W design i0 j0 := by
  obtain ⟨W', hW', hent⟩ := get_W_interior design h1 h2 hR
  rw [hW] at hW'
  cases hW'
  intro i j
  rcases hm i j with h | h
  · refine Or.inr ⟨h, ?_⟩
    rw [hent, h, zero_mul, zero_add, if_neg]
    rintro ⟨rfl, rfl⟩
    rw [hd] at h
    exact one_ne_zero h
  · refine Or.inl ⟨h, ?_⟩
    rw [hent, hent, h, hd, if_pos (hin i j h), if_pos (hin i0 j0 hd), if_pos (hin i0 j0 hd), if_pos (hin i j h)]
    have : Spec.cone R ((i0 : ℤ) - i) ((j0 : ℤ) - j) = Spec.cone R ((i : ℤ) - i0) ((j : ℤ) - j0) := by
      rw [← cone_neg]; congr 1 <;> ring
    rw [this]
    simp

/-! ## C29 -/

/-- **C29 (partial).** For an objective of linear Ez fields `compute_dJ` returns, at each pixel where the filter is symmetric (`Spec.FilterSym`), the derivative of
`t ↦ compute_J(simulation with that density pixel changed by t)`.  Missing from the full claim: pixels where `W` is not symmetric — there it is false, see
`C29_false_near_border`. -/
theorem C29_gradient_exact_partial (env : Env) (he : env.Exact) (o : Opt Nx Ny) (J : ObjFn Nx Ny) (args : List ObjArg) (rho : Grid Nx Ny ℝ)
    (hS : Spec.LinearEz env o J args rho) (hargs : ∀ a ∈ args, ObjArg.init "Ez" false = .ok a) (i0 : Fin Nx) (j0 : Fin Ny)
    (hW : Spec.FilterSym o.W o.design_region i0 j0) :
    ∃ g f, (Opt.compute_dJ env o).1 = .ok g ∧
      (∀ t, (Opt.compute_J env o (some (Spec.simAt o (Spec.bump rho i0 j0 t)))).1 = .ok (f t)) ∧ HasDerivAt f (g i0 j0) 0 :=
  gradient_exact_Ez env he o J args rho hS (args_of_init fun a ha => ⟨"Ez", by simp, hargs a ha⟩) i0 j0 hW

/-- **C29, no filter.** With `R = None` (`W` the identity) the gradient is exact at every design pixel. -/
theorem C29_gradient_exact_unfiltered (env : Env) (he : env.Exact) (o : Opt Nx Ny) (J : ObjFn Nx Ny) (args : List ObjArg) (rho : Grid Nx Ny ℝ)
    (hS : Spec.LinearEz env o J args rho) (hargs : ∀ a ∈ args, ObjArg.init "Ez" false = .ok a) (hW : o.W = 1) (hm : Spec.Mask o.design_region)
    (i0 : Fin Nx) (j0 : Fin Ny) (hd : o.design_region i0 j0 = 1) :
    ∃ g f, (Opt.compute_dJ env o).1 = .ok g ∧
      (∀ t, (Opt.compute_J env o (some (Spec.simAt o (Spec.bump rho i0 j0 t)))).1 = .ok (f t)) ∧ HasDerivAt f (g i0 j0) 0 :=
  C29_gradient_exact_partial env he o J args rho hS hargs i0 j0 (hW ▸ filterSym_one hm hd)

/-- **C29, filter.** With `W = get_W(design_region, NPML, R)`, PML on both axes, and a design region inside the pixels that `get_W` visits, the gradient is exact at
every design pixel. -/
theorem C29_gradient_exact_filtered (env : Env) (he : env.Exact) (o : Opt Nx Ny) (J : ObjFn Nx Ny) (args : List ObjArg) (rho : Grid Nx Ny ℝ)
    (hS : Spec.LinearEz env o J args rho) (hargs : ∀ a ∈ args, ObjArg.init "Ez" false = .ok a) (R : ℕ) (hR : 1 ≤ R)
    (hW : get_W Nx Ny o.design_region o.simulation.NPML R = .ok o.W) (h1 : 1 ≤ o.simulation.NPML.1) (h2 : 1 ≤ o.simulation.NPML.2) (hm : Spec.Mask o.design_region)
    (hin : ∀ i j, o.design_region i j = 1 → Interior Nx Ny o.simulation.NPML R i j) (i0 : Fin Nx) (j0 : Fin Ny) (hd : o.design_region i0 j0 = 1) :
    ∃ g f, (Opt.compute_dJ env o).1 = .ok g ∧
      (∀ t, (Opt.compute_J env o (some (Spec.simAt o (Spec.bump rho i0 j0 t)))).1 = .ok (f t)) ∧ HasDerivAt f (g i0 j0) 0 :=
  C29_gradient_exact_partial env he o J args rho hS hargs i0 j0 (filterSym_get_W hW h1 h2 hR hm hin hd)

/-! ## C30 -/

/-- **C30 (partial).** The same for objectives of any mixture of the linear fields Ez, Hx, Hy. -/
theorem C30_gradient_exact_partial (env : Env) (he : env.Exact) (o : Opt Nx Ny) (J : ObjFn Nx Ny) (args : List ObjArg) (rho : Grid Nx Ny ℝ)
    (hS : Spec.LinearEz env o J args rho) (hargs : ∀ a ∈ args, ∃ c, c ∈ ["Ez", "Hx", "Hy"] ∧ ObjArg.init c false = .ok a) (i0 : Fin Nx) (j0 : Fin Ny)
    (hW : Spec.FilterSym o.W o.design_region i0 j0) :
    ∃ g f, (Opt.compute_dJ env o).1 = .ok g ∧
      (∀ t, (Opt.compute_J env o (some (Spec.simAt o (Spec.bump rho i0 j0 t)))).1 = .ok (f t)) ∧ HasDerivAt f (g i0 j0) 0 :=
  gradient_exact_Ez env he o J args rho hS (args_of_init hargs) i0 j0 hW

/-- **C30, no filter.** -/
theorem C30_gradient_exact_unfiltered (env : Env) (he : env.Exact) (o : Opt Nx Ny) (J : ObjFn Nx Ny) (args : List ObjArg) (rho : Grid Nx Ny ℝ)
    (hS : Spec.LinearEz env o J args rho) (hargs : ∀ a ∈ args, ∃ c, c ∈ ["Ez", "Hx", "Hy"] ∧ ObjArg.init c false = .ok a) (hW : o.W = 1) (hm : Spec.Mask o.design_region)
    (i0 : Fin Nx) (j0 : Fin Ny) (hd : o.design_region i0 j0 = 1) :
    ∃ g f, (Opt.compute_dJ env o).1 = .ok g ∧
      (∀ t, (Opt.compute_J env o (some (Spec.simAt o (Spec.bump rho i0 j0 t)))).1 = .ok (f t)) ∧ HasDerivAt f (g i0 j0) 0 :=
  C30_gradient_exact_partial env he o J args rho hS hargs i0 j0 (hW ▸ filterSym_one hm hd)

/-- **C30, filter.** -/
theorem C30_gradient_exact_filtered (env : Env) (he : env.Exact) (o : Opt Nx Ny) (J : ObjFn Nx Ny) (args : List ObjArg) (rho : Grid Nx Ny ℝ)
    (hS : Spec.LinearEz env o J args rho) (hargs : ∀ a ∈ args, ∃ c, c ∈ ["Ez", "Hx", "Hy"] ∧ ObjArg.init c false = .ok a) (R : ℕ) (hR : 1 ≤ R)
    (hW : get_W Nx Ny o.design_region o.simulation.NPML R = .ok o.W) (h1 : 1 ≤ o.simulation.NPML.1) (h2 : 1 ≤ o.simulation.NPML.2) (hm : Spec.Mask o.design_region)
    (hin : ∀ i j, o.design_region i j = 1 → Interior Nx Ny o.simulation.NPML R i j) (i0 : Fin Nx) (j0 : Fin Ny) (hd : o.design_region i0 j0 = 1) :
    ∃ g f, (Opt.compute_dJ env o).1 = .ok g ∧
      (∀ t, (Opt.compute_J env o (some (Spec.simAt o (Spec.bump rho i0 j0 t)))).1 = .ok (f t)) ∧ HasDerivAt f (g i0 j0) 0 :=
  C30_gradient_exact_partial env he o J args rho hS hargs i0 j0 (filterSym_get_W hW h1 h2 hR hm hin hd)

/-! ## Concrete cases -/

/-- A simulation with one cell of PML on each side, coarse enough to be nonsingular (`ε₀ L0 = 1`, `ω = 1`, `dl = 3/η₀`), vacuum, zero density. -/
noncomputable def gsim (Nx Ny : ℕ) (P : ℕ) (src : Grid Nx Ny ℂ) : Sim Nx Ny :=
  let xr : ℝ × ℝ := (0, Nx * (3 / ETA_0))
  let yr : ℝ × ℝ := (0, Ny * (3 / ETA_0))
  let r := construct_A 1 xr yr (fun _ _ => 1) (P, P) .Ez (1 / EPSILON_0)
  { L0 := 1 / EPSILON_0, omega := 1, dl := 3 / ETA_0, NPML := (P, P), pol := .Ez, xrange := xr, yrange := yr,
    src := src, eps_r := fun _ _ => 1, A := r.1, derivs := r.2, fields := fun _ => none, fields_nl := fun _ => none, nonlinearity := [],
    eps_nl := fun _ _ => 0, dnl_de := fun _ _ => 0, dnl_deps := fun _ _ => 0, Anl := none, rho := some (some fun _ _ => 0) }

theorem gsim_valid (P : ℕ) (src : Grid Nx Ny ℂ) : (gsim Nx Ny P src).Valid where
  L0_pos := one_div_pos.2 EPSILON_0_pos
  omega_pos := one_pos
  xr := rfl
  yr := rfl
  A_eq := rfl
  derivs_eq := construct_A_derivs _ _ _ _ _ _ _ _

theorem gsim_det (hx : 1 < Nx) (hy : 1 < Ny) (P : ℕ) (src : Grid Nx Ny ℂ) : (gsim Nx Ny P src).A.det ≠ 0 := by
  have h := wellposed_Ez (gsim Nx Ny P src) (gsim_valid P src) rfl (div_pos (by norm_num) ETA_0_pos) hx hy 0 (by
    intro i j
    show 8 / (MU_0 * (1 / EPSILON_0) * (3 / ETA_0) ^ 2) < (1 : ℝ) ^ 2 * EPSILON_0 * (1 / EPSILON_0) * ‖(1 : ℂ) + 0‖
    rw [mu0_norm, add_zero, norm_one, one_pow, one_mul, mul_assoc, mul_one, mul_one_div_cancel EPSILON_0_pos.ne']
    have h1 : ETA_0 ^ 2 * (3 / ETA_0) ^ 2 = 9 := by
      have := ETA_0_pos.ne'
      field_simp; norm_num
    rw [h1]; norm_num)
  have hz : (spdiag fun k => (((gsim Nx Ny P src).omega ^ 2 * EPSILON_0 * (gsim Nx Ny P src).L0 : ℝ) : ℂ) * flatten (0 : Grid Nx Ny ℂ) k) = 0 := by
    have : (fun k => (((gsim Nx Ny P src).omega ^ 2 * EPSILON_0 * (gsim Nx Ny P src).L0 : ℝ) : ℂ) * flatten (0 : Grid Nx Ny ℂ) k) = 0 := by
      funext k
      show _ * (0 : ℂ) = 0
      rw [mul_zero]
    rw [this]
    simp [spdiag]
  rwa [hz, add_zero] at h

/-- Zero density is vacuum. -/
theorem rho2eps_zero (eps_m : ℝ) (W : Mat (Nx * Ny) ℝ) (eta beta : ℝ) : rho2eps (fun _ _ => 0) eps_m W eta beta = fun _ _ => 1 := by
  funext i j
  have h : rho2rhot (fun _ _ => 0) W i j = 0 := by
    simp only [rho2rhot, unflatten, mulVec, dotProduct]
    exact Finset.sum_eq_zero fun k _ => by simp [flatten]
  simp only [rho2eps, h, rhot2rhob, rhob2eps, zero_sub, mul_neg, Real.tanh_neg, add_neg_cancel, zero_div, zero_mul, add_zero]

/-- An `Optimization` of the witness simulation. -/
noncomputable def gopt (P : ℕ) (src : Grid Nx Ny ℂ) (ob : Objective Nx Ny) (design : Grid Nx Ny ℝ) (W : Mat (Nx * Ny) ℝ) : Opt Nx Ny :=
  { objective := ob, simulation := gsim Nx Ny P src, design_region := design, W := W, eps_m := 5, eta := 1 / 2, beta := 1, max_ind_shift := none,
    src_amplitudes := [], objfn_list := [], fields_current := false, field_arg_list := none }

theorem gopt_setup (env : Env) (hx : 1 < Nx) (hy : 1 < Ny) (P : ℕ) (src : Grid Nx Ny ℂ) (J : ObjFn Nx Ny) (args : List ObjArg) (design : Grid Nx Ny ℝ) (W : Mat (Nx * Ny) ℝ)
    (hlen : args.length = J.arity) (hJ : ∀ x, Spec.Autograd J x) :
    Spec.LinearEz env (gopt P src (Objective.mk' J args) design W) J args fun _ _ => 0 where
  obj := by
    unfold Objective.init
    rw [if_neg (not_not.2 hlen)]
    rfl
  valid := gsim_valid P src
  pol := rfl
  det := gsim_det hx hy P src
  stale := rfl
  density := rfl
  eps := by rw [rho2eps_zero]; funext i j; simp [gopt, gsim]
  beta := one_ne_zero
  autograd := fun x _ => hJ x

/-- The intensity objective on a `9 × 9` grid with PML, unfiltered, everywhere a design pixel. -/
example (env : Env) (he : env.Exact) (src : Grid 9 9 ℂ) (i0 j0 : Fin 9) :
    let o := gopt 1 src (Objective.mk' (intensityJ 9 9) [⟨.Ez, false, .linear_Ez⟩]) (fun _ _ => 1) 1
    ∃ g f, (Opt.compute_dJ env o).1 = .ok g ∧
      (∀ t, (Opt.compute_J env o (some (Spec.simAt o (Spec.bump (fun _ _ => 0) i0 j0 t)))).1 = .ok (f t)) ∧ HasDerivAt f (g i0 j0) 0 := by
  have hS := gopt_setup env (Nx := 9) (Ny := 9) (by norm_num) (by norm_num) 1 src (intensityJ 9 9) [⟨.Ez, false, .linear_Ez⟩] (fun _ _ => 1) 1 rfl (intensityJ_autograd (Nx := 9) (Ny := 9))
  refine C29_gradient_exact_unfiltered env he _ _ _ _ hS ?_ rfl (fun _ _ => Or.inr rfl) i0 j0 rfl
  intro a ha
  rw [List.mem_singleton] at ha
  rw [ha]; rfl

/-- The same for the intensity of Hx with the cone filter of radius 2 and the one pixel that is far enough from the boundary. -/
example (env : Env) (he : env.Exact) (src : Grid 9 9 ℂ) :
    ∃ W, get_W 9 9 (fun i j => if i = 4 ∧ j = 4 then 1 else 0) (1, 1) 2 = .ok W ∧
    let o := gopt 1 src (Objective.mk' (intensityJ 9 9) [⟨.Hx, false, .linear_Hx⟩]) (fun i j => if i = 4 ∧ j = 4 then 1 else 0) W
    ∃ g f, (Opt.compute_dJ env o).1 = .ok g ∧
      (∀ t, (Opt.compute_J env o (some (Spec.simAt o (Spec.bump (fun _ _ => 0) 4 4 t)))).1 = .ok (f t)) ∧ HasDerivAt f (g 4 4) 0 := by
  obtain ⟨W, hW, -⟩ := get_W_interior (Nx := 9) (Ny := 9) (NPML := (1, 1)) (R := 2) (fun i j => if i = 4 ∧ j = 4 then 1 else 0) le_rfl le_rfl (by norm_num)
  have hS := gopt_setup env (Nx := 9) (Ny := 9) (by norm_num) (by norm_num) 1 src (intensityJ 9 9) [⟨.Hx, false, .linear_Hx⟩] (fun i j => if i = 4 ∧ j = 4 then 1 else 0) W rfl
    (intensityJ_autograd (Nx := 9) (Ny := 9))
  refine ⟨W, hW, C30_gradient_exact_filtered env he _ _ _ _ hS ?_ 2 (by norm_num) hW
    le_rfl le_rfl ?_ ?_ 4 4 (show (if (4 : Fin 9) = 4 ∧ (4 : Fin 9) = 4 then (1 : ℝ) else 0) = 1 from if_pos ⟨rfl, rfl⟩)⟩
  · intro a ha
    rw [List.mem_singleton] at ha
    exact ⟨"Hx", by simp, by rw [ha]; rfl⟩
  · intro i j
    show (if i = 4 ∧ j = 4 then (1 : ℝ) else 0) = 0 ∨ (if i = 4 ∧ j = 4 then (1 : ℝ) else 0) = 1
    by_cases h : i = 4 ∧ j = 4
    · right; rw [if_pos h]
    · left; rw [if_neg h]
  · intro i j h
    have h' : (if i = 4 ∧ j = 4 then (1 : ℝ) else 0) = 1 := h
    by_cases hc : i = 4 ∧ j = 4
    · obtain ⟨rfl, rfl⟩ := hc
      show Interior 9 9 (1, 1) 2 4 4
      unfold Interior InteriorAxis
      decide
    · rw [if_neg hc] at h'
      exact absurd h' (by norm_num)

/-- The array that is 1 at one pixel. -/
def Spec.single (i0 : Fin Nx) (j0 : Fin Ny) : Grid Nx Ny ℂ := fun i j => if i = i0 ∧ j = j0 then 1 else 0

theorem sum_single (i0 : Fin Nx) (j0 : Fin Ny) (F : Fin Nx → Fin Ny → ℂ) : ∑ i, ∑ j, Spec.single i0 j0 i j * F i j = F i0 j0 := by
  rw [Finset.sum_eq_single i0, Finset.sum_eq_single j0]
  · simp [Spec.single]
  · intro b _ hb; simp [Spec.single, hb]
  · intro h; exact absurd (Finset.mem_univ _) h
  · intro b _ hb; simp [Spec.single, hb]
  · intro h; exact absurd (Finset.mem_univ _) h

theorem drhob_drhot_pos (r : ℝ) : 0 < drhob_drhot r (1 / 2) 1 := by
  unfold drhob_drhot
  refine div_pos ?_ (rhot2rhob_den_pos (1 / 2) 1 one_pos)
  have h1 := Real.abs_tanh_lt_one (1 * (r - 1 / 2))
  have : Real.tanh (1 * (r - 1 / 2)) ^ 2 < 1 := (sq_lt_one_iff_abs_lt_one _).2 h1
  linarith

/-- If row `(i0, j0)` of the filter vanishes but the pixel has influence on `(i1, j1)`, the gradient at `(i0, j0)` is wrong for some source and objective. -/
theorem border_witness (env : Env) (he : env.Exact) (hx : 1 < Nx) (hy : 1 < Ny) (P : ℕ) (design : Grid Nx Ny ℝ) (W : Mat (Nx * Ny) ℝ) (i0 i1 : Fin Nx) (j0 j1 : Fin Ny)
    (hrow : ∀ i j, W (finProdFinEquiv (i0, j0)) (finProdFinEquiv (i, j)) = 0) (hne : W (finProdFinEquiv (i1, j1)) (finProdFinEquiv (i0, j0)) ≠ 0) :
    ∃ (J : ObjFn Nx Ny) (src : Grid Nx Ny ℂ),
      let o := gopt P src (Objective.mk' J [⟨.Ez, false, .linear_Ez⟩]) design W
      Spec.LinearEz env o J [⟨.Ez, false, .linear_Ez⟩] (fun _ _ => 0) ∧
      ∃ g f f', (Opt.compute_dJ env o).1 = .ok g ∧
        (∀ t, (Opt.compute_J env o (some (Spec.simAt o (Spec.bump (fun _ _ => 0) i0 j0 t)))).1 = .ok (f t)) ∧ HasDerivAt f f' 0 ∧ g i0 j0 = 0 ∧ f' ≠ 0 := by
  have hdet := fun src => gsim_det hx hy P src
  have hAs : ∀ src, (gsim Nx Ny P src).A = (gsim Nx Ny P (fun _ _ => 0)).A := fun _ => rfl
  generalize hA : (gsim Nx Ny P (fun _ _ => 0)).A = A at hAs
  let d : Grid Nx Ny ℂ := Spec.single i1 j1
  let src : Grid Nx Ny ℂ := unflatten fun k => (A *ᵥ flatten d) k / Complex.I
  let p : Grid Nx Ny ℂ := unflatten (-(Aᵀ *ᵥ flatten d))
  have hS := gopt_setup env hx hy P src (linearJ p) [⟨.Ez, false, .linear_Ez⟩] design W rfl (linearJ_autograd p)
  refine ⟨linearJ p, src, hS, ?_⟩
  obtain ⟨x, g, f, h1, h2, -, h3, h4⟩ := gradient_Ez_formula env he _ _ _ _ hS (by
    intro a ha
    rw [List.mem_singleton] at ha
    rw [ha]; exact ⟨rfl, trivial, rfl⟩) i0 j0
  refine ⟨g, f, _, h1, h2, h4, ?_, ?_⟩
  · rw [h3]
    refine Finset.sum_eq_zero fun k _ => ?_
    rw [tail_Ez_apply]
    have : ∀ i j, (gopt P src (Objective.mk' (linearJ p) [⟨.Ez, false, .linear_Ez⟩]) design W).W (finProdFinEquiv (i0, j0)) (finProdFinEquiv (i, j)) = 0 := hrow
    simp only [this, zero_mul, mul_zero, Complex.ofReal_zero, Finset.sum_const_zero, Complex.zero_re]
  · have hX : solver_direct env (gsim Nx Ny P src).A (gsim Nx Ny P src).rhs = flatten d := by
      refine solver_direct_unique he (hdet src) ?_
      rw [hAs]
      funext k
      show (A *ᵥ flatten d) k = flatten src k * Complex.I * ((1 : ℝ) : ℂ)
      rw [show (flatten src : Vec (Nx * Ny) ℂ) = fun k => (A *ᵥ flatten d) k / Complex.I from flatten_unflatten _, div_mul_cancel₀ _ Complex.I_ne_zero]
      simp
    have haj : solver_direct env (gsim Nx Ny P src).Aᵀ (-(flatten p)) = flatten d := by
      refine solver_direct_unique he (by rw [Matrix.det_transpose]; exact hdet src) ?_
      rw [show (flatten p : Vec (Nx * Ny) ℂ) = -(Aᵀ *ᵥ flatten d) from flatten_unflatten _, neg_neg, hAs]
    have e : ∀ k : Fin 1, unflatten (solver_direct env (gopt P src (Objective.mk' (linearJ p) [⟨.Ez, false, .linear_Ez⟩]) design W).simulation.Aᵀ
        (-(linPart (gopt P src (Objective.mk' (linearJ p) [⟨.Ez, false, .linear_Ez⟩]) design W).simulation ((linearJ p).partials k x)
          ((([⟨.Ez, false, .linear_Ez⟩] : List ObjArg)[(k : ℕ)]?.map ObjArg.component).getD .Ez)))) = d := by
      intro k
      obtain rfl : k = 0 := Subsingleton.elim _ _
      exact (congrArg unflatten haj).trans (unflatten_flatten _)
    have e2 : (unflatten (solver_direct env (gopt P src (Objective.mk' (linearJ p) [⟨.Ez, false, .linear_Ez⟩]) design W).simulation.A
        (gopt P src (Objective.mk' (linearJ p) [⟨.Ez, false, .linear_Ez⟩]) design W).simulation.rhs) : Grid Nx Ny ℂ) = d := (congrArg unflatten hX).trans (unflatten_flatten _)
    rw [e2, show (∑ k : Fin (linearJ p).arity, _ : ℝ) = ∑ k : Fin 1, _ from rfl, Fin.sum_univ_one]
    beta_reduce
    rw [e 0, sum_single]
    have hd : d i1 j1 = 1 := if_pos ⟨rfl, rfl⟩
    have hE : ((EPSILON_0 * (gsim Nx Ny P src).L0 : ℝ) : ℂ) = 1 := by rw [show EPSILON_0 * (gsim Nx Ny P src).L0 = 1 from eps0_norm]; simp
    have h1 : drhob_drhot (rho2rhot (fun _ _ => 0) W i1 j1) (1 / 2) 1 ≠ 0 := (drhob_drhot_pos _).ne'
    show (((1 : ℝ) : ℂ) ^ 2 * ((EPSILON_0 * (gsim Nx Ny P src).L0 : ℝ) : ℂ) * ((((5 - 1) * drhob_drhot (rho2rhot (fun _ _ => 0) W i1 j1) (1 / 2) 1 * W (finProdFinEquiv (i1, j1)) (finProdFinEquiv (i0, j0)) : ℝ) : ℂ) * d i1 j1)).re ≠ 0
    rw [hd, hE, Complex.ofReal_one, one_pow, one_mul, one_mul, mul_one, Complex.ofReal_re]
    exact mul_ne_zero (mul_ne_zero (by norm_num) h1) hne

/-- **C29 is false near the border of the filtered area.** On a `9 × 9` grid with `NPML = [1, 1]`, filter radius 2 and every pixel a design pixel there are a source and a
(linear) objective for which the gradient returned at pixel `(4, 3)` is 0 while the derivative is not. -/
theorem C29_false_near_border (env : Env) (he : env.Exact) :
    ∃ (W : Mat (9 * 9) ℝ) (J : ObjFn 9 9) (src : Grid 9 9 ℂ), get_W 9 9 (fun _ _ => 1) (1, 1) 2 = .ok W ∧
      let o := gopt 1 src (Objective.mk' J [⟨.Ez, false, .linear_Ez⟩]) (fun _ _ => 1) W
      Spec.LinearEz env o J [⟨.Ez, false, .linear_Ez⟩] (fun _ _ => 0) ∧
      ∃ g f f', (Opt.compute_dJ env o).1 = .ok g ∧
        (∀ t, (Opt.compute_J env o (some (Spec.simAt o (Spec.bump (fun _ _ => 0) 4 3 t)))).1 = .ok (f t)) ∧ HasDerivAt f f' 0 ∧ g 4 3 = 0 ∧ f' ≠ 0 := by
  obtain ⟨W, hW, hent⟩ := get_W_interior (Nx := 9) (Ny := 9) (NPML := (1, 1)) (R := 2) (fun _ _ => 1) le_rfl le_rfl (by norm_num)
  have hn : ¬ Interior 9 9 (1, 1) 2 ((4 : Fin 9) : ℕ) ((3 : Fin 9) : ℕ) := by unfold Interior InteriorAxis; decide
  have hi : Interior 9 9 (1, 1) 2 ((4 : Fin 9) : ℕ) ((4 : Fin 9) : ℕ) := by unfold Interior InteriorAxis; decide
  obtain ⟨J, src, h⟩ := border_witness env he (Nx := 9) (Ny := 9) (by norm_num) (by norm_num) 1 (fun _ _ => 1) W 4 4 3 4 (by
      intro i j
      rw [hent, if_neg hn]
      simp) (by
      rw [hent, if_pos hi, if_neg hn, if_neg (by decide)]
      have : 0 < Spec.cone 2 (((4 : Fin 9) : ℤ) - ((4 : Fin 9) : ℤ)) (((3 : Fin 9) : ℤ) - ((4 : Fin 9) : ℤ)) := by
        rw [cone_pos_iff]
        have e1 : (((4 : Fin 9) : ℕ) : ℤ) = 4 := rfl
        have e2 : (((3 : Fin 9) : ℕ) : ℤ) = 3 := rfl
        rw [e1, e2]
        norm_num
      rw [one_mul, div_one, add_zero]
      exact this.ne')
  exact ⟨W, J, src, hW, h⟩

end Angler
